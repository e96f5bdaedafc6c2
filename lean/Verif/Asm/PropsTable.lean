import Verif.Asm.Props
import Verif.Asm.Table

/-! # C55: every instruction form of the assembler is recognisable -/

namespace Verif.Asm

open Spec

/-- The operands fit a form: classes of the registers, kind of the `r/m` operand, size of the
immediate.  This is what the Rust types of the `impl` say. -/
def RegFits : RegField → RegSlot → Prop
  | .cls c, .reg o => classOf o = c
  | .digit d, .digit e => d = e
  | _, _ => False

/-- See `RegFits`. -/
def RmFits : RmField → RmSlot → Prop
  | .cls c, .reg o => classOf o = c
  | .mem, .mem a => Wf a
  | _, _ => False

/-- The bytes of an instruction of form `f` (inst.rs, `write_inst` of the `impl` at `f.line`). -/
def Form.encode (f : Form) (reg : RegSlot) (rm : RmSlot) (imm : List Nat) : Option (List Nat) :=
  encodeModRM f.legacy f.w f.opcode reg rm imm

/-- `OpcodeOk` as a test. -/
def opcodeOkB : List Nat → Bool
  | [b] => b != 0x0F && !isLegacy b && b / 16 != 4
  | [0x0F, b] => b != 0x38 && b != 0x3A
  | [0x0F, b, _] => b == 0x38 || b == 0x3A
  | _ => false

theorem opcodeOkB_ok {op : List Nat} (h : opcodeOkB op = true) : OpcodeOk op := by
  unfold opcodeOkB at h
  split at h
  · rename_i b
    simp only [Bool.and_eq_true, bne_iff_ne, Bool.not_eq_true'] at h
    exact .inl ⟨b, rfl, h.1.1, h.1.2, h.2⟩
  · rename_i b
    simp only [Bool.and_eq_true, bne_iff_ne] at h
    exact .inr (.inl ⟨b, rfl, h.1, h.2⟩)
  · rename_i b c
    simp only [Bool.or_eq_true, beq_iff_eq] at h
    exact .inr (.inr ⟨b, c, rfl, h⟩)
  · cases h

theorem forms_check : forms.all (fun f => f.line == 14832 || f.line == 14848 ||
    (f.legacy.all isLegacy && opcodeOkB f.opcode)) = true := by
  decide +kernel

theorem pminsb_check : forms.all (fun f => (f.line == 14832 || f.line == 14848) == (f.name == "pminsb")) = true := by
  decide +kernel

/-- Every form but `pminsb` has mandatory prefixes and an opcode of the shapes the processor knows. -/
theorem forms_opcode {f : Form} (hf : f ∈ forms) (hn : f.name ≠ "pminsb") :
    (∀ b ∈ f.legacy, isLegacy b = true) ∧ OpcodeOk f.opcode := by
  have h1 := List.all_eq_true.1 forms_check f hf
  have h2 := List.all_eq_true.1 pminsb_check f hf
  have h3 : (f.name == "pminsb") = false := by simpa using hn
  rw [h3] at h2
  have h4 : (f.line == 14832 || f.line == 14848) = false := by simpa using h2
  rw [h4, Bool.false_or, Bool.and_eq_true, List.all_eq_true] at h1
  exact ⟨h1.1, opcodeOkB_ok h1.2⟩

theorem rmFits_ok {k : RmField} {rm : RmSlot} (h : RmFits k rm) : RmOk rm := by
  cases rm with
  | reg o => trivial
  | mem a =>
    cases k with
    | cls c => cases h
    | mem => exact h

/-- C55 (partial: without `pminsb`, see `forms_decode_refuted`): whatever the operands, the bytes
written for a form are read by the processor as the prefixes, REX.W, opcode and operands given. -/
theorem forms_decode_partial {f : Form} (hf : f ∈ forms) (hn : f.name ≠ "pminsb") {reg : RegSlot}
    {rm : RmSlot} {imm bytes : List Nat} (hrm : RmFits f.rm rm)
    (h : f.encode reg rm imm = some bytes) (rest : List Nat) :
    ∃ d, Spec.decode (rmClass rm) (bytes ++ rest) = some d ∧
      d.legacy = f.legacy ∧ d.rexW = f.w ∧ d.opcode = f.opcode ∧
      RegMatches reg d.rexPresent d.reg ∧ d.rm = rmVal rm ∧ d.rest = imm ++ rest := by
  obtain ⟨h1, h2⟩ := forms_opcode hf hn
  exact decode_encode _ _ _ _ _ _ _ _ h1 h2 (rmFits_ok hrm) h

/-- C55 fails for `pminsb` (inst.rs:14832, 14848): its opcode lacks the third byte, the processor
takes the ModR/M byte for the opcode.  The generator drops an opcode byte that was seen before
(xtencg/src/instr/encoding.rs:157-163; the table x86.csv:1615 has `66 0F 38 38 /r`). -/
theorem forms_decode_refuted : ∃ f ∈ forms, f.name = "pminsb" ∧
    RegFits f.reg (.reg (.xmm .xmm1)) ∧ RmFits f.rm (.reg (.xmm .xmm2)) ∧
    ∃ bytes, f.encode (.reg (.xmm .xmm1)) (.reg (.xmm .xmm2)) [] = some bytes ∧
      ∀ rest d, Spec.decode .cx (bytes ++ rest) = some d → d.opcode ≠ f.opcode ++ [0x38] ∧ d.opcode ≠ f.opcode := by
  refine ⟨⟨"pminsb", 14832, [0x66], false, [0x0F, 0x38], .cls .cx, .cls .cx, 0⟩, ?_, rfl, rfl, rfl,
    [0x66, 0x0F, 0x38, 0xCA], by decide +kernel, ?_⟩
  · have : forms.any (· == ⟨"pminsb", 14832, [0x66], false, [0x0F, 0x38], .cls .cx, .cls .cx, 0⟩) = true := by
      decide +kernel
    obtain ⟨f, hf, he⟩ := List.any_eq_true.1 this
    rw [beq_iff_eq] at he
    exact he ▸ hf
  · intro rest d hd
    have : d.opcode = [0x0F, 0x38, 0xCA] := by
      simp only [Spec.decode] at hd
      have h1 : readLegacy ([0x66, 0x0F, 0x38, 0xCA] ++ rest) = ([0x66], 0x0F :: 0x38 :: 0xCA :: rest) := rfl
      rw [h1] at hd
      simp only at hd
      have h2 : readRex (0x0F :: 0x38 :: 0xCA :: rest) = (none, 0x0F :: 0x38 :: 0xCA :: rest) := rfl
      rw [h2] at hd
      simp only at hd
      have h3 : readOpcode (0x0F :: 0x38 :: 0xCA :: rest) = some ([0x0F, 0x38, 0xCA], rest) := rfl
      rw [h3] at hd
      simp only [bind, Option.bind] at hd
      split at hd
      · cases hd
      · cases hd; rfl
    rw [this]
    decide

/-! ## Forms of different instructions are told apart -/

/-- Names of one instruction: condition codes with several names, `sal` and `shl`
(volume 2, `Jcc`, `SETcc`, `SAL/SAR/SHL/SHR`).  Maps every name to one of its synonyms. -/
def canon (n : String) : String :=
  ([("jnbe", "ja"), ("jnb", "jae"), ("jnc", "jae"), ("jc", "jb"), ("jnae", "jb"), ("jna", "jbe"), ("jz", "je"),
    ("jnle", "jg"), ("jnl", "jge"), ("jnge", "jl"), ("jng", "jle"), ("jnz", "jne"), ("jpo", "jnp"), ("jpe", "jp"),
    ("setnbe", "seta"), ("setnb", "setae"), ("setnc", "setae"), ("setc", "setb"), ("setnae", "setb"),
    ("setna", "setbe"), ("setz", "sete"), ("setnle", "setg"), ("setnl", "setge"), ("setnge", "setl"),
    ("setng", "setle"), ("setnz", "setne"), ("setpo", "setnp"), ("setpe", "setp"),
    ("salb", "shlb"), ("sall", "shll"), ("salq", "shlq"), ("salw", "shlw")].lookup n).getD n

/-- A number for a list of bytes. -/
def listNum (l : List Nat) : Nat := l.foldl (fun k b => 256 * k + b) 1

/-- A number for prefixes, REX.W and opcode. -/
def groupKey (legacy : List Nat) (w : Bool) (opcode : List Nat) : Nat :=
  (2 * listNum legacy + w.toNat) * 4294967296 + listNum opcode

/-- The opcode digit, 8 if there is none. -/
def RegField.num : RegField → Nat
  | .digit d => d
  | .cls _ => 8

/-- Whether the form wants memory. -/
def RmField.isMem : RmField → Bool
  | .mem => true
  | .cls _ => false

/-- Whether the reg field is a digit. -/
def RegField.isDigit : RegField → Bool
  | .digit _ => true
  | .cls _ => false

/-- Number of a form. -/
def Form.numKey (f : Form) : Nat := (groupKey f.legacy f.w f.opcode * 16 + f.reg.num) * 2 + f.rm.isMem.toNat

/-- Consecutive forms: the keys ascend, equal keys mean the same instruction. -/
def ascending : List Form → Bool
  | f :: g :: l =>
    (f.numKey < g.numKey || (f.numKey == g.numKey && canon f.name == canon g.name)) && ascending (g :: l)
  | _ => true

/-- Consecutive forms: digits and registers are not mixed. -/
def unmixed : List Form → Bool
  | f :: g :: l =>
    let a := groupKey f.legacy f.w f.opcode
    let b := groupKey g.legacy g.w g.opcode
    (a < b || (a == b && f.reg.isDigit == g.reg.isDigit)) && unmixed (g :: l)
  | _ => true

theorem forms_ascending : ascending forms = true := by decide +kernel
theorem forms_unmixed : unmixed forms = true := by decide +kernel

theorem ascending_pairwise : ∀ {l : List Form}, ascending l = true →
    l.Pairwise (fun f g => f.numKey ≤ g.numKey ∧ (f.numKey = g.numKey → canon f.name = canon g.name)) := by
  intro l
  induction l with
  | nil => exact fun _ => .nil
  | cons f l ih =>
    intro h
    refine .cons ?_ ?_
    · cases l with
      | nil => exact fun _ hg => by cases hg
      | cons g l =>
        simp only [ascending, Bool.and_eq_true, Bool.or_eq_true, decide_eq_true_eq, beq_iff_eq] at h
        have ih := ih h.2
        intro x hx
        rcases List.mem_cons.1 hx with rfl | hx
        · exact ⟨by omega, fun e => by rcases h.1 with h | h; omega; exact h.2⟩
        · obtain ⟨a, b⟩ := (List.pairwise_cons.1 ih).1 x hx
          refine ⟨by omega, fun e => ?_⟩
          rcases h.1 with h | h
          · omega
          · exact h.2.trans (b (by omega))
    · cases l with
      | nil => exact .nil
      | cons g l =>
        simp only [ascending, Bool.and_eq_true] at h
        exact ih h.2

theorem unmixed_pairwise : ∀ {l : List Form}, unmixed l = true →
    l.Pairwise (fun f g => groupKey f.legacy f.w f.opcode ≤ groupKey g.legacy g.w g.opcode ∧
      (groupKey f.legacy f.w f.opcode = groupKey g.legacy g.w g.opcode → f.reg.isDigit = g.reg.isDigit)) := by
  intro l
  induction l with
  | nil => exact fun _ => .nil
  | cons f l ih =>
    intro h
    refine .cons ?_ ?_
    · cases l with
      | nil => exact fun _ hg => by cases hg
      | cons g l =>
        simp only [unmixed, Bool.and_eq_true, Bool.or_eq_true, decide_eq_true_eq, beq_iff_eq] at h
        have ih := ih h.2
        intro x hx
        rcases List.mem_cons.1 hx with rfl | hx
        · exact ⟨by omega, fun e => by rcases h.1 with h | h; omega; exact h.2⟩
        · obtain ⟨a, b⟩ := (List.pairwise_cons.1 ih).1 x hx
          refine ⟨by omega, fun e => ?_⟩
          rcases h.1 with h | h
          · omega
          · exact h.2.trans (b (by omega))
    · cases l with
      | nil => exact .nil
      | cons g l =>
        simp only [unmixed, Bool.and_eq_true] at h
        exact ih h.2

theorem pairwise_mem {α : Type} {R : α → α → Prop} {l : List α} (h : l.Pairwise R) {a b : α} (ha : a ∈ l)
    (hb : b ∈ l) : a = b ∨ R a b ∨ R b a := by
  induction h with
  | nil => cases ha
  | cons h1 _ ih =>
    rcases List.mem_cons.1 ha with ea | ha' <;> rcases List.mem_cons.1 hb with eb | hb'
    · exact .inl (ea.trans eb.symm)
    · exact .inr (.inl (ea ▸ h1 _ hb'))
    · exact .inr (.inr (eb ▸ h1 _ ha'))
    · exact ih ha' hb'

/-- Forms with the same prefixes, REX.W, opcode, digit and kind of operand are one instruction. -/
theorem same_key_same_instruction {f g : Form} (hf : f ∈ forms) (hg : g ∈ forms)
    (hl : f.legacy = g.legacy) (hw : f.w = g.w) (ho : f.opcode = g.opcode) (hd : f.reg.num = g.reg.num)
    (hm : f.rm.isMem = g.rm.isMem) : canon f.name = canon g.name := by
  have e : f.numKey = g.numKey := by simp only [Form.numKey, hl, hw, ho, hd, hm]
  rcases pairwise_mem (ascending_pairwise forms_ascending) hf hg with h | h | h
  · rw [h]
  · exact h.2 e
  · exact (h.2 e.symm).symm

/-- An opcode has either digits or a register in the reg field. -/
theorem same_group_same_kind {f g : Form} (hf : f ∈ forms) (hg : g ∈ forms)
    (hl : f.legacy = g.legacy) (hw : f.w = g.w) (ho : f.opcode = g.opcode) :
    f.reg.isDigit = g.reg.isDigit := by
  have e : groupKey f.legacy f.w f.opcode = groupKey g.legacy g.w g.opcode := by rw [hl, hw, ho]
  rcases pairwise_mem (unmixed_pairwise forms_unmixed) hf hg with h | h | h
  · rw [h]
  · exact h.2 e
  · exact (h.2 e.symm).symm

/-- Whether an operand read is memory. -/
def Spec.RmVal.mem? : RmVal → Bool
  | .reg _ => false
  | .mem _ => true

theorem readModRM_class {c c' : RegClass} {rex : Option Nat} {bs : List Nat} {n n' : Nat} {v v' : RmVal}
    {r r' : List Nat} (h : readModRM c rex bs = some (n, v, r)) (h' : readModRM c' rex bs = some (n', v', r')) :
    n = n' ∧ RmVal.mem? v = RmVal.mem? v' := by
  cases bs with
  | nil => cases h
  | cons b bs =>
    by_cases hm : b / 64 % 4 = 3
    · simp only [readModRM, if_pos hm, bind, Option.bind_eq_some_iff] at h h'
      obtain ⟨r1, _, h⟩ := h
      obtain ⟨r2, _, h'⟩ := h'
      cases h; cases h'
      exact ⟨rfl, rfl⟩
    · have : readModRM c rex (b :: bs) = readModRM c' rex (b :: bs) := by
        simp only [readModRM, if_neg hm]
      rw [this, h'] at h
      cases h
      exact ⟨rfl, rfl⟩

theorem decode_class {c c' : RegClass} {bs : List Nat} {d d' : Decoded} (h : Spec.decode c bs = some d)
    (h' : Spec.decode c' bs = some d') : d.legacy = d'.legacy ∧ d.rexW = d'.rexW ∧ d.opcode = d'.opcode ∧
      d.reg = d'.reg ∧ RmVal.mem? d.rm = RmVal.mem? d'.rm := by
  simp only [Spec.decode, bind, Option.bind_eq_some_iff] at h h'
  obtain ⟨⟨op, bs1⟩, h1, ⟨n, v, r⟩, h2, h3⟩ := h
  obtain ⟨⟨op', bs1'⟩, h1', ⟨n', v', r'⟩, h2', h3'⟩ := h'
  rw [h1] at h1'
  cases h1'
  obtain ⟨e1, e2⟩ := readModRM_class h2 h2'
  cases h3; cases h3'
  exact ⟨rfl, rfl, rfl, e1, e2⟩

theorem mem?_fits {k : RmField} {rm : RmSlot} (h : RmFits k rm) : RmVal.mem? (rmVal rm) = k.isMem := by
  cases k <;> cases rm <;> first | rfl | cases h

/-- C55 (partial: without `pminsb`): two instruction forms whose bytes, followed by anything, coincide
are forms of the same instruction. -/
theorem forms_distinct_partial {f g : Form} (hf : f ∈ forms) (hg : g ∈ forms) (nf : f.name ≠ "pminsb")
    (ng : g.name ≠ "pminsb") {reg reg' : RegSlot} {rm rm' : RmSlot} {imm imm' bytes bytes' rest rest' : List Nat}
    (hr : RegFits f.reg reg) (hr' : RegFits g.reg reg') (hrm : RmFits f.rm rm) (hrm' : RmFits g.rm rm')
    (h : f.encode reg rm imm = some bytes) (h' : g.encode reg' rm' imm' = some bytes')
    (e : bytes ++ rest = bytes' ++ rest') : canon f.name = canon g.name := by
  obtain ⟨d, hd, d1, d2, d3, d4, d5, _⟩ := forms_decode_partial hf nf hrm h rest
  obtain ⟨d', hd', d1', d2', d3', d4', d5', _⟩ := forms_decode_partial hg ng hrm' h' rest'
  rw [← e] at hd'
  obtain ⟨e1, e2, e3, e4, e5⟩ := decode_class hd hd'
  rw [d1, d1'] at e1
  rw [d2, d2'] at e2
  rw [d3, d3'] at e3
  rw [d5, d5', mem?_fits hrm, mem?_fits hrm'] at e5
  have ek := same_group_same_kind hf hg e1 e2 e3
  refine same_key_same_instruction hf hg e1 e2 e3 ?_ e5
  cases hfr : f.reg with
  | cls c =>
    cases hgr : g.reg with
    | cls c' => rfl
    | digit j => rw [hfr, hgr] at ek; cases ek
  | digit i =>
    cases hgr : g.reg with
    | cls c' => rw [hfr, hgr] at ek; cases ek
    | digit j =>
      rw [hfr] at hr
      rw [hgr] at hr'
      cases reg with
      | reg o => cases hr
      | digit a =>
        cases reg' with
        | reg o => cases hr'
        | digit b =>
          have h1 : i = a := hr
          have h2 : j = b := hr'
          have h3 : d.reg = a := d4
          have h4 : d'.reg = b := d4'
          show i = j
          omega

/-- The bytes of a form without register operand (inst.rs, `write_inst` at `f.line`): prefixes, REX.W,
opcode, immediate. -/
def FixedForm.encode (f : FixedForm) (imm : List Nat) : List Nat :=
  f.legacy ++ (if f.w then [0x48] else []) ++ f.opcode ++ imm

/-- C55 fails for `jecxz` (inst.rs:9528) and `jrcxz` (inst.rs:10096): different instructions, same
bytes (the address size prefix 0x67 of `jecxz` is missing). -/
theorem forms_distinct_refuted : ∃ f ∈ fixedForms, ∃ g ∈ fixedForms, f.name = "jecxz" ∧ g.name = "jrcxz" ∧
    canon f.name ≠ canon g.name ∧ ∀ imm, f.encode imm = g.encode imm := by
  refine ⟨⟨"jecxz", 9528, [], false, [0xE3], 1⟩, ?_, ⟨"jrcxz", 10096, [], false, [0xE3], 1⟩, ?_, rfl, rfl,
    by decide +kernel, fun _ => rfl⟩
  · have : fixedForms.any (· == ⟨"jecxz", 9528, [], false, [0xE3], 1⟩) = true := by decide +kernel
    obtain ⟨f, hf, he⟩ := List.any_eq_true.1 this
    rw [beq_iff_eq] at he
    exact he ▸ hf
  · have : fixedForms.any (· == ⟨"jrcxz", 10096, [], false, [0xE3], 1⟩) = true := by decide +kernel
    obtain ⟨f, hf, he⟩ := List.any_eq_true.1 this
    rw [beq_iff_eq] at he
    exact he ▸ hf

/-! ## Examples -/

theorem mem_of_any {f : Form} (h : forms.any (· == f) = true) : f ∈ forms := by
  obtain ⟨g, hg, he⟩ := List.any_eq_true.1 h
  rw [beq_iff_eq] at he
  exact he ▸ hg

/-- `addq %rax, 8(%rbx)`. -/
example : ∃ f ∈ forms, f.name = "addq" ∧ f.name ≠ "pminsb" ∧ RegFits f.reg (.reg (.r64 .rax)) ∧
    RmFits f.rm (.mem (.baseDisp .rbx (.disp8 8))) ∧
    f.encode (.reg (.r64 .rax)) (.mem (.baseDisp .rbx (.disp8 8))) [] = some [0x48, 0x01, 0x43, 8] :=
  ⟨⟨"addq", 4157, [], true, [0x01], .cls .c64, .mem, 0⟩, mem_of_any (by decide +kernel), rfl, by decide, rfl,
    ⟨fun i h => (by cases h), (by decide : (-128 : Int) ≤ 8 ∧ (8 : Int) < 128)⟩, by decide +kernel⟩

/-- Two synonyms with the same bytes: the conclusion of `forms_distinct_partial` cannot be equality of names. -/
example : ∃ f ∈ forms, ∃ g ∈ forms, f.name = "salq" ∧ g.name = "shlq" ∧
    f.encode (.digit 4) (.reg (.r64 .rax)) [3] = g.encode (.digit 4) (.reg (.r64 .rax)) [3] ∧
    (f.encode (.digit 4) (.reg (.r64 .rax)) [3]).isSome = true ∧ canon f.name = canon g.name :=
  ⟨⟨"salq", 19144, [], true, [0xC1], .digit 4, .cls .c64, 1⟩, mem_of_any (by decide +kernel),
    ⟨"shlq", 21481, [], true, [0xC1], .digit 4, .cls .c64, 1⟩, mem_of_any (by decide +kernel), rfl, rfl, rfl,
    by decide +kernel, by decide +kernel⟩

end Verif.Asm
