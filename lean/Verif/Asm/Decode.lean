import Verif.Asm.Lemmas

/-! # Decoding what the encoder wrote -/

namespace Verif.Asm

open Spec

/-- Reading a ModR/M byte with a SIB byte and a base register. -/
theorem read_sib_base (c : RegClass) (rex : Option Nat) (m reg ss i b : Nat) (hm : m < 3) (hreg : reg < 8)
    (hss : ss < 4) (hi : i < 8) (hb : b < 8) (hb5 : ¬ (b = 5 ∧ m = 0)) (index : Option (Gpr64 × Nat))
    (hidx : readIndex (ext (rexBit rex 1) i) ss = some index)
    (base : Gpr64) (hbase : gpr64[ext (rexBit rex 0) b]? = some base) (d : Int) (bs rest : List Nat)
    (hd : readDisp (if m = 0 then 0 else if m = 1 then 1 else 4) bs = some (d, rest)) :
    readModRM c rex ((64 * m + 8 * reg + 4) :: (64 * ss + 8 * i + b) :: bs)
      = some (ext (rexBit rex 2) reg, .mem ⟨.gpr base, index, d⟩, rest) := by
  have e1 : (64 * m + 8 * reg + 4) / 64 % 4 = m := by omega
  have e2 : (64 * m + 8 * reg + 4) / 8 % 8 = reg := by omega
  have e3 : (64 * m + 8 * reg + 4) % 8 = 4 := by omega
  have e4 : (64 * ss + 8 * i + b) / 64 % 4 = ss := by omega
  have e5 : (64 * ss + 8 * i + b) / 8 % 8 = i := by omega
  have e6 : (64 * ss + 8 * i + b) % 8 = b := by omega
  unfold readModRM
  simp only [e1, e2, e3, e4, e5, e6]
  rw [if_neg (by omega : ¬ m = 3), if_pos trivial, hidx]
  simp only [bind, Option.bind]
  rw [if_neg hb5, hbase, hd]

/-- Reading a ModR/M byte with a SIB byte and no base register. -/
theorem read_sib_nobase (c : RegClass) (rex : Option Nat) (reg ss i : Nat) (hreg : reg < 8)
    (hss : ss < 4) (hi : i < 8) (index : Option (Gpr64 × Nat))
    (hidx : readIndex (ext (rexBit rex 1) i) ss = some index)
    (d : Int) (bs rest : List Nat) (hd : readDisp 4 bs = some (d, rest)) :
    readModRM c rex ((64 * 0 + 8 * reg + 4) :: (64 * ss + 8 * i + 5) :: bs)
      = some (ext (rexBit rex 2) reg, .mem ⟨.none, index, d⟩, rest) := by
  have e1 : (64 * 0 + 8 * reg + 4) / 64 % 4 = 0 := by omega
  have e2 : (64 * 0 + 8 * reg + 4) / 8 % 8 = reg := by omega
  have e3 : (64 * 0 + 8 * reg + 4) % 8 = 4 := by omega
  have e4 : (64 * ss + 8 * i + 5) / 64 % 4 = ss := by omega
  have e5 : (64 * ss + 8 * i + 5) / 8 % 8 = i := by omega
  have e6 : (64 * ss + 8 * i + 5) % 8 = 5 := by omega
  unfold readModRM
  simp only [e1, e2, e3, e4, e5, e6]
  rw [if_neg (by omega : ¬ 0 = 3), if_pos trivial, hidx]
  simp only [bind, Option.bind]
  rw [if_pos ⟨trivial, trivial⟩, hd]

/-- Reading a ModR/M byte without SIB and with a base register. -/
theorem read_base (c : RegClass) (rex : Option Nat) (m reg b : Nat) (hm : m < 3) (hreg : reg < 8)
    (hb : b < 8) (hb4 : b ≠ 4) (hb5 : ¬ (b = 5 ∧ m = 0))
    (base : Gpr64) (hbase : gpr64[ext (rexBit rex 0) b]? = some base) (d : Int) (bs rest : List Nat)
    (hd : readDisp (if m = 0 then 0 else if m = 1 then 1 else 4) bs = some (d, rest)) :
    readModRM c rex ((64 * m + 8 * reg + b) :: bs)
      = some (ext (rexBit rex 2) reg, .mem ⟨.gpr base, none, d⟩, rest) := by
  have e1 : (64 * m + 8 * reg + b) / 64 % 4 = m := by omega
  have e2 : (64 * m + 8 * reg + b) / 8 % 8 = reg := by omega
  have e3 : (64 * m + 8 * reg + b) % 8 = b := by omega
  unfold readModRM
  simp only [e1, e2, e3]
  rw [if_neg (by omega : ¬ m = 3), if_neg hb4, if_neg hb5, hbase]
  simp only [bind, Option.bind]
  rw [hd]

/-- Reading a RIP-relative operand. -/
theorem read_rip (c : RegClass) (rex : Option Nat) (reg : Nat) (hreg : reg < 8)
    (d : Int) (bs rest : List Nat) (hd : readDisp 4 bs = some (d, rest)) :
    readModRM c rex ((64 * 0 + 8 * reg + 5) :: bs)
      = some (ext (rexBit rex 2) reg, .mem ⟨.rip, none, d⟩, rest) := by
  have e1 : (64 * 0 + 8 * reg + 5) / 64 % 4 = 0 := by omega
  have e2 : (64 * 0 + 8 * reg + 5) / 8 % 8 = reg := by omega
  have e3 : (64 * 0 + 8 * reg + 5) % 8 = 5 := by omega
  unfold readModRM
  simp only [e1, e2, e3]
  rw [if_neg (by omega : ¬ 0 = 3), if_neg (by omega : ¬ 5 = 4), if_pos ⟨trivial, trivial⟩, hd]
  rfl

/-- Reading a register operand. -/
theorem read_reg (c : RegClass) (rex : Option Nat) (reg b : Nat) (hreg : reg < 8) (hb : b < 8) (o : RegOp)
    (h : regOf c rex.isSome (ext (rexBit rex 0) b) = some o) (bs : List Nat) :
    readModRM c rex ((64 * 3 + 8 * reg + b) :: bs) = some (ext (rexBit rex 2) reg, .reg o, bs) := by
  have e1 : (64 * 3 + 8 * reg + b) / 64 % 4 = 3 := by omega
  have e2 : (64 * 3 + 8 * reg + b) / 8 % 8 = reg := by omega
  have e3 : (64 * 3 + 8 * reg + b) % 8 = b := by omega
  unfold readModRM
  simp only [e1, e2, e3]
  rw [if_pos trivial, h]
  rfl

/-- What is needed of an encoded memory operand. -/
def Good (a : Address) (m : Rm) : Prop :=
  m.modRmMod < 4 ∧ m.modRmRm < 8 ∧ m.rexPrefix = .notRequired ∧
  ∃ sib disp, m.sibByte = some sib ∧ m.dispBytes = some disp ∧
    (∀ b ∈ sib.toList ++ disp.getD [], b < 256) ∧
    ∀ (c : RegClass) (rex : Option Nat) (reg : Nat) (rest : List Nat), reg < 8 →
      rexBit rex 1 = m.rexX → rexBit rex 0 = m.rexB →
      readModRM c rex ((64 * m.modRmMod + 8 * reg + m.modRmRm) :: (sib.toList ++ disp.getD [] ++ rest))
        = some (ext (rexBit rex 2) reg, .mem (effAddr a), rest)

theorem sib_fields {s i b : Nat} (hs : s < 4) (hi : i < 8) (hb : b < 8) :
    (do let v ← setBits 0 s 6 8
        let v ← setBits v i 3 6
        let v ← setBits v b 0 3
        some (some v)) = some (some (64 * s + 8 * i + b)) := by
  have h := fields hs hi hb
  simp only [bind]
  revert h
  cases setBits 0 s 6 8 with
  | none => intro h; cases h
  | some v =>
    cases h2 : setBits v i 3 6 with
    | none => simp [h2]
    | some v2 =>
      cases h3 : setBits v2 b 0 3 with
      | none => simp [h2, h3]
      | some v3 => simp [h2, h3]

theorem bits_lt (s : Scale) : s.bits < 4 := by cases s <;> decide
theorem factor_bits (s : Scale) : 2 ^ s.bits = factor s := by cases s <;> rfl

/-- The index field read back. -/
theorem index_read (rex : Option Nat) (i : IndexScale) (hi : i.index ≠ .rsp)
    (h : rexBit rex 1 = ((i.index.registerCode &&& 8) != 0)) :
    readIndex (ext (rexBit rex 1) (i.index.registerCode &&& 7)) i.scale.bits
      = some (some (i.index, factor i.scale)) := by
  obtain ⟨h1, h2⟩ := code_gpr64 i.index
  rw [h, (code_split _ h1).2, readIndex, h2, if_neg, factor_bits]
  · rfl
  · intro hc
    apply hi
    revert hc
    cases i.index <;> decide

theorem noindex_read (rex : Option Nat) (ss : Nat) (h : rexBit rex 1 = false) :
    readIndex (ext (rexBit rex 1) 4) ss = some none := by
  rw [h]
  rfl

theorem base_read (rex : Option Nat) (b : Gpr64) (h : rexBit rex 0 = ((b.registerCode &&& 8) != 0)) :
    gpr64[ext (rexBit rex 0) (b.registerCode &&& 7)]? = some b := by
  obtain ⟨h1, h2⟩ := code_gpr64 b
  rw [h, (code_split _ h1).2, h2]

theorem mod_cases (d : Displacement) : d.modRmMod = 1 ∨ d.modRmMod = 2 := by cases d <;> simp [Displacement.modRmMod]

theorem disp_size_of_mod (r : Rm) (d : Displacement) (h : r.modRmMod = d.modRmMod) :
    r.dispSize = some d.size := by
  cases d <;> simp_all [Rm.dispSize, Displacement.modRmMod, Displacement.size]

theorem disp_bytes_lt (d : Displacement) : ∀ b ∈ d.bytes, b < 256 := by
  cases d <;> exact leBytes_lt _ _

theorem lt_of_sib {s i b : Nat} (hs : s < 4) (hi : i < 8) (hb : b < 8) : 64 * s + 8 * i + b < 256 := by omega

theorem good_sib_base (a : Address) (b : Gpr64) (idx : Option IndexScale) (d : Option Displacement)
    (hi : ∀ i, idx = some i → i.index ≠ .rsp)
    (hd : ∀ x, d = some x → x.InRange)
    (hn : d = none → b.registerCode &&& 7 ≠ 5)
    (ha : effAddr a = ⟨.gpr b, idx.map fun i => (i.index, factor i.scale), (d.map dispVal).getD 0⟩) :
    Good a ⟨(d.map (·.modRmMod)).getD 0, 4,
      (match idx with | none => false | some i => (i.index.registerCode &&& 8) != 0),
      (b.registerCode &&& 8) != 0, idx.map (·.scale),
      some (match idx with | none => 4 | some i => i.index.registerCode &&& 7),
      some (b.registerCode &&& 7), d, .notRequired⟩ := by
  obtain ⟨hb1, hb2⟩ := code_gpr64 b
  have hb3 := (code_split _ hb1).1
  have hm : (d.map (·.modRmMod)).getD 0 < 3 := by
    cases d with
    | none => decide
    | some d => rcases mod_cases d with h | h <;> simp [h]
  have hsib : (Rm.mk ((d.map (·.modRmMod)).getD 0) 4
      (match idx with | none => false | some i => (i.index.registerCode &&& 8) != 0)
      ((b.registerCode &&& 8) != 0) (idx.map (·.scale))
      (some (match idx with | none => 4 | some i => i.index.registerCode &&& 7))
      (some (b.registerCode &&& 7)) d .notRequired).sibPresent = true := by
    simp only [Rm.sibPresent, Bool.and_eq_true, bne_iff_ne, beq_iff_eq]
    exact ⟨by omega, trivial⟩
  have hdisp : (Rm.mk ((d.map (·.modRmMod)).getD 0) 4
      (match idx with | none => false | some i => (i.index.registerCode &&& 8) != 0)
      ((b.registerCode &&& 8) != 0) (idx.map (·.scale))
      (some (match idx with | none => 4 | some i => i.index.registerCode &&& 7))
      (some (b.registerCode &&& 7)) d .notRequired).dispSize = d.map (·.size) := by
    cases d with
    | some d => exact disp_size_of_mod _ d rfl
    | none =>
      have := hn rfl
      simp [Rm.dispSize, this]
  have hread : ∀ rest, readDisp (if (d.map (·.modRmMod)).getD 0 = 0 then 0 else
      if (d.map (·.modRmMod)).getD 0 = 1 then 1 else 4)
      ((d.map (·.bytes)).getD [] ++ rest) = some ((d.map dispVal).getD 0, rest) := by
    intro rest
    cases d with
    | none => exact readDisp_zero rest
    | some d => exact readDisp_disp d (hd d rfl) rest
  have hbl : ∀ x ∈ (d.map (·.bytes)).getD [], x < 256 := by
    cases d with
    | none => simp
    | some d => exact disp_bytes_lt d
  have h5 : ¬ ((b.registerCode &&& 7) = 5 ∧ (d.map (·.modRmMod)).getD 0 = 0) := by
    rintro ⟨h5, h0⟩
    cases d with
    | none => exact hn rfl h5
    | some d => rcases mod_cases d with h | h <;> simp [h] at h0
  cases idx with
  | none =>
    refine ⟨Nat.lt_of_lt_of_le hm (by omega), (by decide : 4 < 8), rfl, some (64 * 0 + 8 * 4 + (b.registerCode &&& 7)), d.map (·.bytes), ?_, ?_, ?_, ?_⟩
    · unfold Rm.sibByte
      rw [if_pos hsib]
      exact sib_fields (by decide : 0 < 4) (by decide : 4 < 8) hb3
    · unfold Rm.dispBytes
      rw [if_pos hdisp]
    · intro x hx
      simp only [Option.toList, List.cons_append, List.nil_append, List.mem_cons] at hx
      rcases hx with rfl | hx
      · omega
      · exact hbl x hx
    · intro c rex reg rest hreg hx hb
      rw [ha]
      exact read_sib_base c rex _ reg 0 4 _ hm hreg (by omega) (by omega) hb3 h5 none
        (noindex_read rex 0 hx) b (base_read rex b hb) _ _ rest (hread rest)
  | some i =>
    have hi3 := (code_split _ (code_gpr64 i.index).1).1
    refine ⟨Nat.lt_of_lt_of_le hm (by omega), (by decide : 4 < 8), rfl,
      some (64 * i.scale.bits + 8 * (i.index.registerCode &&& 7) + (b.registerCode &&& 7)), d.map (·.bytes), ?_, ?_, ?_, ?_⟩
    · unfold Rm.sibByte
      rw [if_pos hsib]
      exact sib_fields (bits_lt _) hi3 hb3
    · unfold Rm.dispBytes
      rw [if_pos hdisp]
    · intro x hx
      simp only [Option.toList, List.cons_append, List.nil_append, List.mem_cons] at hx
      rcases hx with rfl | hx
      · exact lt_of_sib (bits_lt _) hi3 hb3
      · exact hbl x hx
    · intro c rex reg rest hreg hx hb
      rw [ha]
      exact read_sib_base c rex _ reg _ _ _ hm hreg (bits_lt _) hi3 hb3 h5 _
        (index_read rex i (hi i rfl) hx) b (base_read rex b hb) _ _ rest (hread rest)

theorem good_base (a : Address) (b : Gpr64) (d : Option Displacement)
    (hd : ∀ x, d = some x → x.InRange)
    (hn : d = none → b.registerCode &&& 7 ≠ 5) (h4 : b.registerCode &&& 7 ≠ 4)
    (ha : effAddr a = ⟨.gpr b, none, (d.map dispVal).getD 0⟩) :
    Good a ⟨(d.map (·.modRmMod)).getD 0, b.registerCode &&& 7, false,
      (b.registerCode &&& 8) != 0, none, none, none, d, .notRequired⟩ := by
  obtain ⟨hb1, hb2⟩ := code_gpr64 b
  have hb3 := (code_split _ hb1).1
  have hm : (d.map (·.modRmMod)).getD 0 < 3 := by
    cases d with
    | none => decide
    | some d => rcases mod_cases d with h | h <;> simp [h]
  have hread : ∀ rest, readDisp (if (d.map (·.modRmMod)).getD 0 = 0 then 0 else
      if (d.map (·.modRmMod)).getD 0 = 1 then 1 else 4)
      ((d.map (·.bytes)).getD [] ++ rest) = some ((d.map dispVal).getD 0, rest) := by
    intro rest
    cases d with
    | none => exact readDisp_zero rest
    | some d => exact readDisp_disp d (hd d rfl) rest
  have hbl : ∀ x ∈ (d.map (·.bytes)).getD [], x < 256 := by
    cases d with
    | none => simp
    | some d => exact disp_bytes_lt d
  have h5 : ¬ ((b.registerCode &&& 7) = 5 ∧ (d.map (·.modRmMod)).getD 0 = 0) := by
    rintro ⟨h5, h0⟩
    cases d with
    | none => exact hn rfl h5
    | some d => rcases mod_cases d with h | h <;> simp [h] at h0
  refine ⟨Nat.lt_of_lt_of_le hm (by omega), hb3, rfl, none, d.map (·.bytes), ?_, ?_, ?_, ?_⟩
  · unfold Rm.sibByte Rm.sibPresent
    rw [if_neg]
    simp [h4]
  · unfold Rm.dispBytes
    rw [if_pos]
    cases d with
    | some d => exact disp_size_of_mod _ d rfl
    | none =>
      have := hn rfl
      simp [Rm.dispSize, this]
  · simpa using hbl
  · intro c rex reg rest hreg _ hb
    rw [ha]
    exact read_base c rex _ reg _ hm hreg hb3 h4 h5 b (base_read rex b hb) _ _ rest (hread rest)

/-- Every memory operand that is accepted is encoded faithfully. -/
theorem toRm_good (a : Address) (m : Rm) (hw : Wf a) (h : a.toRm = some m) : Good a m := by
  obtain ⟨hi, hr⟩ := hw
  have hi' : ∀ i, indexOf a = some i → i.index ≠ .rsp := by
    intro i hx
    obtain ⟨r, s, hrs⟩ := hi i hx
    unfold Gpr64.mulScale at hrs
    split at hrs
    · cases hrs; assumption
    · cases hrs
  clear hi
  cases a with
  | abs d =>
    simp only [Address.toRm] at h
    split at h
    case isFalse => cases h
    cases h
    refine ⟨(by decide : 0 < 4), (by decide : 4 < 8), rfl, some (64 * 0 + 8 * 4 + 5), some (leBytes 4 d), sib_fields (by decide : 0 < 4) (by decide : 4 < 8) (by decide : 5 < 8), rfl, ?_, ?_⟩
    · intro x hx
      simp only [Option.toList, List.cons_append, List.nil_append, List.mem_cons] at hx
      rcases hx with rfl | hx
      · omega
      · exact leBytes_lt _ _ x hx
    · intro c rex reg rest hreg hx _
      exact read_sib_nobase c rex reg 0 4 hreg (by omega) (by omega) none (noindex_read rex 0 hx) d _ rest
        (readDisp_32 d hr rest)
  | absIdx d i =>
    obtain ⟨h1, h2⟩ := code_gpr64 i.index
    have h3 := (code_split _ h1).1
    have : (Address.absIdx d i).toRm = some ⟨0, 4, (i.index.registerCode &&& 8) != 0, false, some i.scale,
        some (i.index.registerCode &&& 7), some 5, some (.disp32 d), .notRequired⟩ := by
      simp only [Address.toRm, Rm.new, Rm.withBase, Rm.withIndex, Rm.withScale, Rm.withDisp]
      simp [Rm.sibPresent, h1, Rm.dispSize, Displacement.size]
    rw [this] at h
    cases h
    refine ⟨(by decide : 0 < 4), (by decide : 4 < 8), rfl, some (64 * i.scale.bits + 8 * (i.index.registerCode &&& 7) + 5),
      some (leBytes 4 d), sib_fields (bits_lt _) h3 (by decide : 5 < 8), rfl, ?_, ?_⟩
    · intro x hx
      simp only [Option.toList, List.cons_append, List.nil_append, List.mem_cons] at hx
      rcases hx with rfl | hx
      · exact lt_of_sib (bits_lt _) h3 (by omega)
      · exact leBytes_lt _ _ x hx
    · intro c rex reg rest hreg hx _
      exact read_sib_nobase c rex reg _ _ hreg (bits_lt _) h3 _ (index_read rex i (hi' i rfl) hx) d _ rest
        (readDisp_32 d hr rest)
  | rip =>
    cases h
    refine ⟨(by decide : 0 < 4), (by decide : 5 < 8), rfl, none, some (leBytes 4 0), rfl, rfl, leBytes_lt 4 0, ?_⟩
    intro c rex reg rest hreg _ _
    exact read_rip c rex reg hreg 0 _ rest (readDisp_32 0 (by decide) rest)
  | ripDisp d =>
    cases h
    refine ⟨(by decide : 0 < 4), (by decide : 5 < 8), rfl, none, some (leBytes 4 d), rfl, rfl, leBytes_lt 4 d, ?_⟩
    intro c rex reg rest hreg _ _
    exact read_rip c rex reg hreg d _ rest (readDisp_32 d hr rest)
  | base b =>
    cases b <;> cases h <;> first
      | exact good_base _ _ none (by simp) (by decide) (by decide) rfl
      | exact good_sib_base _ _ none none (by simp) (by simp) (by decide) rfl
      | exact good_base _ _ (some (.disp8 0)) (by simp [Displacement.InRange]) (by decide) (by decide) rfl
  | baseDisp b d =>
    have hd : ∀ x, some d = some x → x.InRange := by intro x hx; cases hx; exact hr
    cases d <;> cases b <;> cases h <;> first
      | exact good_base _ _ (some _) hd (by simp) (by decide) rfl
      | exact good_sib_base _ _ none (some _) (by simp) hd (by simp) rfl
  | baseIdx b i =>
    obtain ⟨h1, h2⟩ := code_gpr64 i.index
    obtain ⟨h3, h4⟩ := code_gpr64 b
    have hx : ∀ j, some i = some j → j.index ≠ .rsp := by intro j hj; cases hj; exact hi' i rfl
    by_cases h5 : b.registerCode &&& 7 = 5
    · have hb : b = .rbp ∨ b = .r13 := by revert h5; cases b <;> decide
      have : (Address.baseIdx b i).toRm = some ⟨1, 4, (i.index.registerCode &&& 8) != 0,
          (b.registerCode &&& 8) != 0, some i.scale, some (i.index.registerCode &&& 7),
          some (b.registerCode &&& 7), some (.disp8 0), .notRequired⟩ := by
        rcases hb with rfl | rfl <;>
        · simp only [Address.toRm, Rm.new, Rm.withBase, Rm.withIndex, Rm.withScale, Rm.withDisp]
          simp [Rm.sibPresent, h1, h3, Rm.dispSize, Displacement.size]
      rw [this] at h
      cases h
      exact good_sib_base _ b (some i) (some (.disp8 0)) hx (by simp [Displacement.InRange]) (by simp) rfl
    · have : (Address.baseIdx b i).toRm = some ⟨0, 4, (i.index.registerCode &&& 8) != 0,
          (b.registerCode &&& 8) != 0, some i.scale, some (i.index.registerCode &&& 7),
          some (b.registerCode &&& 7), none, .notRequired⟩ := by
        clear h
        cases b <;> first
          | exact absurd rfl h5
          | (simp only [Address.toRm, Rm.new, Rm.withBase, Rm.withIndex, Rm.withScale, Rm.withDisp]
             simp [Rm.sibPresent, h1, h3, Rm.dispSize, Displacement.size])
      rw [this] at h
      cases h
      exact good_sib_base _ b (some i) none hx (by simp) (fun _ => h5) rfl
  | baseDispIdx b d i =>
    obtain ⟨h1, h2⟩ := code_gpr64 i.index
    obtain ⟨h3, h4⟩ := code_gpr64 b
    have hx : ∀ j, some i = some j → j.index ≠ .rsp := by intro j hj; cases hj; exact hi' i rfl
    have hd : ∀ x, some d = some x → x.InRange := by intro x hx; cases hx; exact hr
    have : (Address.baseDispIdx b d i).toRm = some ⟨d.modRmMod, 4, (i.index.registerCode &&& 8) != 0,
        (b.registerCode &&& 8) != 0, some i.scale, some (i.index.registerCode &&& 7),
        some (b.registerCode &&& 7), some d, .notRequired⟩ := by
      cases d <;>
      · simp only [Address.toRm, Rm.new, Rm.withBase, Rm.withIndex, Rm.withScale, Rm.withDisp]
        simp [Rm.sibPresent, h1, h3, Rm.dispSize, Displacement.size, Displacement.modRmMod]
    rw [this] at h
    cases h
    exact good_sib_base _ b (some i) (some d) hx hd (by simp) rfl

end Verif.Asm
