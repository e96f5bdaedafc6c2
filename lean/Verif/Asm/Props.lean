import Verif.Asm.Decode

/-! # C24: machine operand encoding is faithful -/

namespace Verif.Asm

open Spec

theorem readLegacy_append (l rest : List Nat) (hl : ∀ b ∈ l, isLegacy b = true)
    (hr : ∀ b bs, rest = b :: bs → isLegacy b = false) : readLegacy (l ++ rest) = (l, rest) := by
  induction l with
  | nil =>
    cases rest with
    | nil => rfl
    | cons b bs =>
      show readLegacy (b :: bs) = _
      unfold readLegacy
      rw [hr b bs rfl]
      rfl
  | cons a l ih =>
    show readLegacy (a :: (l ++ rest)) = _
    unfold readLegacy
    rw [if_pos (hl a (by simp)), ih (fun b hb => hl b (by simp [hb]))]

theorem opcode_head {op : List Nat} (h : OpcodeOk op) :
    ∃ b bs, op = b :: bs ∧ isLegacy b = false ∧ b / 16 ≠ 4 := by
  rcases h with ⟨b, rfl, _, h2, h3⟩ | ⟨b, rfl, _⟩ | ⟨b, c, rfl, _⟩
  · exact ⟨b, [], rfl, h2, h3⟩
  · exact ⟨_, _, rfl, by decide, by decide⟩
  · exact ⟨_, _, rfl, by decide, by decide⟩

theorem readOpcode_append {op : List Nat} (h : OpcodeOk op) (rest : List Nat) :
    readOpcode (op ++ rest) = some (op, rest) := by
  rcases h with ⟨b, rfl, h1, h2, h3⟩ | ⟨b, rfl, h1, h2⟩ | ⟨b, c, rfl, h⟩
  · show readOpcode (b :: rest) = _
    unfold readOpcode
    split
    · rename_i heq; cases heq; exact absurd rfl h1
    · rename_i heq; cases heq; exact absurd rfl h1
    · rename_i heq; cases heq; rfl
    · rename_i heq; cases heq
  · show readOpcode (0x0F :: b :: rest) = _
    simp [readOpcode, h1, h2]
  · show readOpcode (0x0F :: b :: c :: rest) = _
    simp [readOpcode, h]

/-- Prefixes and opcode are read back. -/
theorem read_front {legacy op : List Nat} {rex : Option Nat} (hl : ∀ b ∈ legacy, isLegacy b = true)
    (ho : OpcodeOk op) (hrex : ∀ v, rex = some v → v / 16 = 4 ∧ v < 256) (rest : List Nat) :
    readLegacy (legacy ++ (rex.toList ++ (op ++ rest))) = (legacy, rex.toList ++ (op ++ rest)) ∧
    readRex (rex.toList ++ (op ++ rest)) = (rex, op ++ rest) ∧
    readOpcode (op ++ rest) = some (op, rest) := by
  obtain ⟨b, bs, rfl, hb1, hb2⟩ := opcode_head ho
  refine ⟨?_, ?_, readOpcode_append ho rest⟩
  · refine readLegacy_append _ _ hl ?_
    intro x xs hx
    cases rex with
    | none => cases hx; exact hb1
    | some v =>
      cases hx
      have := hrex _ rfl
      have : x < 80 := by omega
      simp only [isLegacy, Bool.or_eq_false_iff, beq_eq_false_iff_ne]
      omega
  · cases rex with
    | none =>
      show readRex (b :: (bs ++ rest)) = _
      simp [readRex, hb2]
    | some v =>
      show readRex (v :: (b :: bs ++ rest)) = _
      simp [readRex, (hrex v rfl).1]

/-- Class of the registers the `r/m` operand is read in. -/
def rmClass : RmSlot → RegClass
  | .reg r => classOf r
  | .mem _ => .c64

/-- What is in the `reg` field: the register read by its class, or the digit itself. -/
def RegMatches (s : RegSlot) (rexPresent : Bool) (n : Nat) : Prop :=
  match s with
  | .reg r => regOf (classOf r) rexPresent n = some r
  | .digit d => n = d

theorem merge_required {p q : RexPrefix} (h : p.merge q ≠ .inconsistent) :
    (p = .required ∨ q = .required → p.merge q = .required) ∧
    (p = .denied ∨ q = .denied → p.merge q = .denied) := by
  cases p <;> cases q <;> first | exact absurd rfl h | decide

theorem modrm_byte {m : ModRM} (h1 : m.rm.modRmMod < 4) (h2 : m.reg.modRmReg < 8) (h3 : m.rm.modRmRm < 8) :
    m.byte = some (64 * m.rm.modRmMod + 8 * m.reg.modRmReg + m.rm.modRmRm) :=
  fields h1 h2 h3

theorem isSome_of_bit {rex : Option Nat} {i : Nat} (h : rexBit rex i = true) : rex.isSome = true := by
  cases rex with
  | none => cases h
  | some v => rfl

theorem slot_facts {s : RegSlot} {r : Reg} (h : s.toReg = some r) :
    r.modRmReg < 8 ∧ ∀ present, (r.rexR = true → present = true) →
      (r.rexPrefix = .required → present = true) → (r.rexPrefix = .denied → present = false) →
      RegMatches s present (ext r.rexR r.modRmReg) := by
  cases s with
  | reg o => exact toReg_facts h
  | digit d =>
    simp only [RegSlot.toReg, Reg.ofDigit] at h
    split at h
    case isFalse => cases h
    rename_i hd
    have : ∀ d : Fin 8, ∃ r, Reg.new d.1 = some r ∧ r.modRmReg < 8 ∧ ext r.rexR r.modRmReg = d.1 := by
      intro d
      have hd := code_split d.1 (by omega)
      exact ⟨_, if_pos (by omega), hd.1, hd.2⟩
    obtain ⟨r', hr, h1, h2⟩ := this ⟨d, by omega⟩
    rw [hr] at h
    cases h
    exact ⟨h1, fun _ _ _ _ => h2⟩

/-- What an accepted instruction with a ModR/M byte looks like. -/
theorem encode_shape {legacy : List Nat} {w : Bool} {opcode : List Nat} {reg : RegSlot} {rm : RmSlot}
    {imm bytes : List Nat} (h : encodeModRM legacy w opcode reg rm imm = some bytes) :
    ∃ r m rex b sib disp, reg.toReg = some r ∧ rm.toRm = some m ∧
      (ModRM.mk r m).rexByte w = some rex ∧ (ModRM.mk r m).byte = some b ∧ m.sibByte = some sib ∧
      m.dispBytes = some disp ∧
      bytes = legacy ++ rex.toList ++ opcode ++ [b] ++ sib.toList ++ disp.getD [] ++ imm := by
  simp only [encodeModRM, bind] at h
  obtain ⟨r, h1, h⟩ := Option.bind_eq_some_iff.1 h
  obtain ⟨m, h2, h⟩ := Option.bind_eq_some_iff.1 h
  obtain ⟨rex, h3, h⟩ := Option.bind_eq_some_iff.1 h
  obtain ⟨b, h4, h⟩ := Option.bind_eq_some_iff.1 h
  obtain ⟨sib, h5, h⟩ := Option.bind_eq_some_iff.1 h
  obtain ⟨disp, h6, h⟩ := Option.bind_eq_some_iff.1 h
  cases h
  exact ⟨r, m, rex, b, sib, disp, h1, h2, h3, h4, h5, h6, rfl⟩

/-- C24: decoding the bytes of an instruction by the rules of the architecture gives back the
mandatory prefixes, REX.W, the opcode, the register (or opcode digit), the register or memory
operand, and leaves the immediate and whatever follows untouched. -/
theorem decode_encode (legacy : List Nat) (w : Bool) (opcode : List Nat) (reg : RegSlot) (rm : RmSlot)
    (imm bytes rest : List Nat) (hl : ∀ b ∈ legacy, isLegacy b = true) (ho : OpcodeOk opcode)
    (hrm : RmOk rm) (h : encodeModRM legacy w opcode reg rm imm = some bytes) :
    ∃ d, Spec.decode (rmClass rm) (bytes ++ rest) = some d ∧
      d.legacy = legacy ∧ d.rexW = w ∧ d.opcode = opcode ∧
      RegMatches reg d.rexPresent d.reg ∧ d.rm = rmVal rm ∧ d.rest = imm ++ rest := by
  obtain ⟨r, m, rex, b, sib, disp, h1, h2, h3, h4, h5, h6, rfl⟩ := encode_shape h
  obtain ⟨e3, e2, e1, e0, hrex, hreq, hden, hinc⟩ := rex_byte h3
  obtain ⟨hp1, hp2⟩ := merge_required hinc
  obtain ⟨hr8, hmatch⟩ := slot_facts h1
  have hR : RegMatches reg rex.isSome (ext r.rexR r.modRmReg) := by
    refine hmatch _ (fun hr => ?_) (fun hr => hreq (hp1 (.inl hr))) (fun hr => hden (hp2 (.inl hr)))
    rw [← e2] at hr
    exact isSome_of_bit hr
  obtain ⟨f1, f2, f3⟩ := read_front hl ho hrex (b :: (sib.toList ++ disp.getD [] ++ (imm ++ rest)))
  have key : ∀ rv, readModRM (rmClass rm) rex (b :: (sib.toList ++ disp.getD [] ++ (imm ++ rest)))
      = some (ext (rexBit rex 2) r.modRmReg, rv, imm ++ rest) → rv = rmVal rm →
      ∃ d, Spec.decode (rmClass rm)
        (legacy ++ rex.toList ++ opcode ++ [b] ++ sib.toList ++ disp.getD [] ++ imm ++ rest) = some d ∧
      d.legacy = legacy ∧ d.rexW = w ∧ d.opcode = opcode ∧
      RegMatches reg d.rexPresent d.reg ∧ d.rm = rmVal rm ∧ d.rest = imm ++ rest := by
    intro rv hk hrv
    refine ⟨⟨legacy, rexBit rex 3, rex.isSome, opcode, ext (rexBit rex 2) r.modRmReg, rv, imm ++ rest⟩,
      ?_, rfl, e3, rfl, ?_, hrv, rfl⟩
    · have : legacy ++ rex.toList ++ opcode ++ [b] ++ sib.toList ++ disp.getD [] ++ imm ++ rest
          = legacy ++ (rex.toList ++ (opcode ++ (b :: (sib.toList ++ disp.getD [] ++ (imm ++ rest))))) := by
        simp
      rw [this]
      unfold Spec.decode
      rw [f1]
      simp only
      rw [f2]
      simp only
      rw [f3]
      simp only [bind, Option.bind]
      rw [hk]
    · show RegMatches reg rex.isSome (ext (rexBit rex 2) r.modRmReg)
      rw [e2]
      exact hR
  cases rm with
  | reg o =>
    obtain ⟨r', hr', rfl⟩ := toRm_reg h2
    obtain ⟨hr8', hm'⟩ := toReg_facts hr'
    rw [modrm_byte (by decide : 3 < 4) hr8 hr8'] at h4
    have h5' : sib = none := by
      simp [Rm.sibByte, Rm.sibPresent] at h5
      exact h5.symm
    have h6' : disp = none := by
      simp [Rm.dispBytes, Rm.dispSize, Rm.sibPresent] at h6
      exact h6.symm
    subst h5' h6'
    cases h4
    refine key (.reg o) ?_ rfl
    refine read_reg _ _ _ _ hr8 hr8' o ?_ _
    rw [e0]
    refine hm' _ (fun hr => ?_) (fun hr => hreq (hp1 (.inr hr))) (fun hr => hden (hp2 (.inr hr)))
    exact isSome_of_bit (e0.trans hr)
  | mem a =>
    obtain ⟨g1, g2, g3, sib', disp', g4, g5, _, g6⟩ := toRm_good a m hrm h2
    rw [g4] at h5
    rw [g5] at h6
    cases h5
    cases h6
    rw [modrm_byte g1 hr8 g2] at h4
    cases h4
    exact key _ (g6 _ rex _ _ hr8 e1 e0) rfl

example : encodeModRM [] true [0x89] (.reg (.r64 .r14)) (.mem (.baseDispIdx .r13 (.disp8 (-8)) ⟨.r12, .scale4⟩)) []
    = some [0x4F, 0x89, 0x74, 0xA5, 0xF8] := by decide +kernel

example : encodeModRM [0xF2] false [0x0F, 0x10] (.reg (.xmm .xmm10)) (.mem (.base .rdx)) []
    = some [0xF2, 0x44, 0x0F, 0x10, 0x12] := by decide +kernel

example : OpcodeOk [0x0F, 0x10] ∧ OpcodeOk [0x89] ∧ Wf (.baseDispIdx .r13 (.disp8 (-8)) ⟨.r12, .scale4⟩) := by
  refine ⟨.inr (.inl ⟨0x10, rfl, by decide, by decide⟩), .inl ⟨0x89, rfl, by decide, by decide, by decide⟩, ?_, ?_⟩
  · intro i hi
    cases hi
    exact ⟨.r12, .scale4, rfl⟩
  · exact ⟨by decide, by decide⟩

/-- `ah`, `bh`, `ch`, `dh`: not encodable together with a REX prefix. -/
def isHigh : RegOp → Bool
  | .r8 .ah | .r8 .bh | .r8 .ch | .r8 .dh => true
  | _ => false

/-- Needs a REX prefix as a register: the upper eight registers and `spl`, `bpl`, `sil`, `dil`. -/
def needsRex (o : RegOp) : Bool :=
  match o.toReg with
  | some r => r.rexR || r.rexPrefix == .required
  | none => false

/-- C24: every register operand pair is accepted unless a high byte register meets the need of a
REX prefix. -/
theorem encode_reg_accepts (legacy opcode imm : List Nat) (w : Bool) (o1 o2 : RegOp) :
    (encodeModRM legacy w opcode (.reg o1) (.reg o2) imm).isSome = true ↔
      ¬ ((isHigh o1 = true ∨ isHigh o2 = true) ∧ (w = true ∨ needsRex o1 = true ∨ needsRex o2 = true)) := by
  obtain ⟨r1, h1⟩ := toReg_some o1
  obtain ⟨m2, h2⟩ := toRm_reg_some o2
  obtain ⟨r2, hr2, rfl⟩ := toRm_reg h2
  have e1 := (toReg_facts h1).1
  have e2 := (toReg_facts hr2).1
  have hb := modrm_byte (m := ⟨r1, ⟨3, r2.modRmReg, false, r2.rexR, none, none, none, none, r2.rexPrefix⟩⟩)
    (by decide : 3 < 4) e1 e2
  have hs : (Rm.mk 3 r2.modRmReg false r2.rexR none none none none r2.rexPrefix).sibByte = some none := by
    simp [Rm.sibByte, Rm.sibPresent]
  have hd : (Rm.mk 3 r2.modRmReg false r2.rexR none none none none r2.rexPrefix).dispBytes = some none := by
    simp [Rm.dispBytes, Rm.dispSize, Rm.sibPresent]
  have h0 : (encodeModRM legacy w opcode (.reg o1) (.reg o2) imm).isSome
      = ((r1.rexPrefix.merge r2.rexPrefix).byte w r1.rexR false r2.rexR).isSome := by
    simp only [encodeModRM, RegSlot.toReg, RmSlot.toRm, h1, h2, bind, Option.bind, ModRM.rexByte, hb, hs, hd]
    cases RexPrefix.byte (r1.rexPrefix.merge r2.rexPrefix) w r1.rexR false r2.rexR <;> rfl
  rw [h0, rex_byte_some_iff]
  have hk1 : ∀ o r, RegOp.toReg o = some r → (isHigh o = true ↔ r.rexPrefix = .denied) ∧
      (needsRex o = true ↔ (r.rexR = true ∨ r.rexPrefix = .required)) ∧ r.rexPrefix ≠ .inconsistent := by
    intro o r h
    rw [← and_assoc, and_right_comm]
    refine ⟨?_, by simp [needsRex, h]⟩
    cases o with
    | r64 q => cases q <;> cases h <;> simp [isHigh]
    | r32 q => cases q <;> cases h <;> simp [isHigh]
    | r16 q => cases q <;> cases h <;> simp [isHigh]
    | xmm q => cases q <;> cases h <;> simp [isHigh]
    | r8 q => cases q <;> cases h <;> decide
  obtain ⟨a1, a2, a3⟩ := hk1 o1 r1 h1
  obtain ⟨b1, b2, b3⟩ := hk1 o2 r2 hr2
  rw [a1, b1, a2, b2]
  revert a3 b3
  generalize r1.rexPrefix = p
  generalize r2.rexPrefix = q
  generalize r1.rexR = x
  generalize r2.rexR = y
  cases p <;> cases q <;> cases x <;> cases y <;> cases w <;> decide

example : encodeModRM [] false [0x88] (.reg (.r8 .ah)) (.reg (.r8 .spl)) [] = none := by decide +kernel
example : encodeModRM [] false [0x88] (.reg (.r8 .bl)) (.reg (.r8 .spl)) [] = some [0x40, 0x88, 0xDC] := by
  decide +kernel

/-- C24: a memory operand is accepted unless it is a negative absolute address. -/
theorem address_accepts (a : Address) : (a.toRm).isSome = true ↔ ¬ ∃ d, a = .abs d ∧ d < 0 := by
  cases a with
  | abs d =>
    simp only [Address.toRm]
    by_cases h : 0 ≤ d
    · rw [if_pos h]
      refine ⟨fun _ => ?_, fun _ => rfl⟩
      rintro ⟨e, he, h0⟩
      cases he
      omega
    · rw [if_neg h]
      refine ⟨fun h => (by cases h), fun hn => absurd ⟨d, rfl, by omega⟩ hn⟩
  | absIdx d i =>
    refine ⟨fun _ => ?_, fun _ => ?_⟩
    · rintro ⟨e, he, _⟩; cases he
    · cases i with | mk r s => cases r <;> rfl
  | rip => exact ⟨fun _ ⟨e, he, _⟩ => (by cases he), fun _ => rfl⟩
  | ripDisp d => exact ⟨fun _ ⟨e, he, _⟩ => (by cases he), fun _ => rfl⟩
  | base b => exact ⟨fun _ ⟨e, he, _⟩ => (by cases he), fun _ => by cases b <;> rfl⟩
  | baseDisp b d => exact ⟨fun _ ⟨e, he, _⟩ => (by cases he), fun _ => by cases b <;> cases d <;> rfl⟩
  | baseIdx b i =>
    refine ⟨fun _ ⟨e, he, _⟩ => (by cases he), fun _ => ?_⟩
    obtain ⟨r, s⟩ := i
    cases b <;> cases r <;> rfl
  | baseDispIdx b d i =>
    refine ⟨fun _ ⟨e, he, _⟩ => (by cases he), fun _ => ?_⟩
    obtain ⟨r, s⟩ := i
    cases d <;> cases b <;> cases r <;> rfl

/-- C24: the emitted values are bytes. -/
theorem encode_bytes_lt {legacy opcode imm bytes : List Nat} {w : Bool} {reg : RegSlot} {rm : RmSlot}
    (hrm : RmOk rm) (h : encodeModRM legacy w opcode reg rm imm = some bytes)
    (hl : ∀ b ∈ legacy, b < 256) (ho : ∀ b ∈ opcode, b < 256) (hi : ∀ b ∈ imm, b < 256) :
    ∀ b ∈ bytes, b < 256 := by
  obtain ⟨r, m, rex, b, sib, disp, h1, h2, h3, h4, h5, h6, rfl⟩ := encode_shape h
  have hrex := (rex_byte h3).2.2.2.2.1
  have hr8 := (slot_facts h1).1
  have hm : b < 256 ∧ ∀ x ∈ sib.toList ++ disp.getD [], x < 256 := by
    cases rm with
    | reg o =>
      obtain ⟨r', hr', rfl⟩ := toRm_reg h2
      have hr8' := (toReg_facts hr').1
      rw [modrm_byte (by decide : 3 < 4) hr8 hr8'] at h4
      simp [Rm.sibByte, Rm.sibPresent] at h5
      simp [Rm.dispBytes, Rm.dispSize, Rm.sibPresent] at h6
      subst h5 h6
      cases h4
      refine ⟨?_, by simp⟩
      show 64 * 3 + 8 * r.modRmReg + r'.modRmReg < 256
      omega
    | mem a =>
      obtain ⟨g1, g2, g3, sib', disp', g4, g5, g6, _⟩ := toRm_good a m hrm h2
      rw [g4] at h5
      rw [g5] at h6
      cases h5
      cases h6
      rw [modrm_byte g1 hr8 g2] at h4
      cases h4
      refine ⟨?_, g6⟩
      show 64 * m.modRmMod + 8 * r.modRmReg + m.modRmRm < 256
      omega
  intro x hx
  simp only [List.mem_append, List.mem_singleton, Option.mem_toList] at hx
  rcases hx with (((((hx | hx) | hx) | hx) | hx) | hx) | hx
  · exact hl x hx
  · exact (hrex x hx).2
  · exact ho x hx
  · exact hx ▸ hm.1
  · exact hm.2 x (by simp [hx])
  · exact hm.2 x (List.mem_append_right _ hx)
  · exact hi x hx

/-- C24: two different operands never get the same bytes (for operands of one instruction form). -/
theorem encode_injective (legacy : List Nat) (w : Bool) (opcode : List Nat) (o1 o2 : RegOp) (rm1 rm2 : RmSlot)
    (imm1 imm2 bytes : List Nat) (hl : ∀ b ∈ legacy, isLegacy b = true) (ho : OpcodeOk opcode)
    (h1 : RmOk rm1) (h2 : RmOk rm2) (hc : classOf o1 = classOf o2) (hr : rmClass rm1 = rmClass rm2)
    (e1 : encodeModRM legacy w opcode (.reg o1) rm1 imm1 = some bytes)
    (e2 : encodeModRM legacy w opcode (.reg o2) rm2 imm2 = some bytes) :
    o1 = o2 ∧ rmVal rm1 = rmVal rm2 ∧ imm1 = imm2 := by
  obtain ⟨d, hd, -, -, -, a1, a2, a3⟩ := decode_encode legacy w opcode (.reg o1) rm1 imm1 bytes [] hl ho h1 e1
  obtain ⟨d', hd', -, -, -, b1, b2, b3⟩ := decode_encode legacy w opcode (.reg o2) rm2 imm2 bytes [] hl ho h2 e2
  rw [hr] at hd
  have := hd.symm.trans hd'
  cases this
  simp only [RegMatches] at a1 b1
  rw [hc] at a1
  refine ⟨?_, a2.symm.trans b2, by simpa using a3.symm.trans b3⟩
  have := a1.symm.trans b1
  exact Option.some.inj this

/-- C24: a register embedded in the opcode is read back from the low three bits and REX.B. -/
theorem decode_in_opcode (legacy : List Nat) (w : Bool) (escape : List Nat) (op : Nat) (o : RegOp)
    (imm bytes : List Nat) (hop : op % 8 = 0)
    (h : encodeInOpcode legacy w escape op o imm = some bytes) :
    ∃ (rex : Option Nat) (b : Nat), bytes = legacy ++ rex.toList ++ escape ++ [b] ++ imm ∧
      (∀ v, rex = some v → v / 16 = 4 ∧ v < 256) ∧
      rexBit rex 3 = w ∧ b / 8 = op / 8 ∧
      regOf (classOf o) rex.isSome (ext (rexBit rex 0) (b % 8)) = some o := by
  simp only [encodeInOpcode, bind] at h
  obtain ⟨r, h1, h⟩ := Option.bind_eq_some_iff.1 h
  obtain ⟨rex, h3, h⟩ := Option.bind_eq_some_iff.1 h
  cases h
  obtain ⟨e3, e2, e1, e0, hrex, hreq, hden, hinc⟩ := rex_byte h3
  obtain ⟨hr8, hm⟩ := toReg_facts h1
  refine ⟨rex, op + r.modRmReg, rfl, hrex, e3, by omega, ?_⟩
  rw [show (op + r.modRmReg) % 8 = r.modRmReg by omega, e0]
  exact hm _ (fun hr => isSome_of_bit (e0.trans hr)) hreq hden

example : encodeInOpcode [] true [] 0xB8 (.r64 .r9) [1, 0, 0, 0, 0, 0, 0, 0]
    = some [0x49, 0xB9, 1, 0, 0, 0, 0, 0, 0, 0] := by decide +kernel

/-- C24: the 32, 16 and 8-bit views of a register are its low part. -/
theorem views (r : Gpr64) :
    Spec.partOf (.r32 r.l) = some (r, 0) ∧ Spec.partOf (.r16 r.w) = some (r, 0) ∧
    Spec.partOf (.r8 r.b) = some (r, 0) := by
  cases r <;> decide +kernel

end Verif.Asm
