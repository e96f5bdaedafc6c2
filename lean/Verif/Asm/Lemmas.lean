import Verif.Asm.Spec

/-! # Lemmas about the operand encoding -/

namespace Verif.Asm

open Spec

theorem fields_fin : ∀ m : Fin 4, ∀ r : Fin 8, ∀ k : Fin 8,
    ((setBits 0 m 6 8).bind fun v => (setBits v r 3 6).bind fun v => setBits v k 0 3)
      = some (64 * m.1 + 8 * r.1 + k.1) := by
  decide +kernel

theorem fields {m r k : Nat} (hm : m < 4) (hr : r < 8) (hk : k < 8) :
    ((setBits 0 m 6 8).bind fun v => (setBits v r 3 6).bind fun v => setBits v k 0 3)
      = some (64 * m + 8 * r + k) :=
  fields_fin ⟨m, hm⟩ ⟨r, hr⟩ ⟨k, hk⟩

/-- The REX prefix byte: when it is there and what it says. -/
theorem rex_byte {p : RexPrefix} {w r x b : Bool} {o : Option Nat} (h : p.byte w r x b = some o) :
    rexBit o 3 = w ∧ rexBit o 2 = r ∧ rexBit o 1 = x ∧ rexBit o 0 = b ∧
    (∀ v, o = some v → v / 16 = 4 ∧ v < 256) ∧
    (p = .required → o.isSome = true) ∧ (p = .denied → o.isSome = false) ∧ p ≠ .inconsistent := by
  have key : ∀ (p : RexPrefix) (w r x b : Bool), (p.byte w r x b).all (fun o =>
      rexBit o 3 == w && rexBit o 2 == r && rexBit o 1 == x && rexBit o 0 == b &&
      o.all (fun v => v / 16 == 4 && decide (v < 256)) &&
      (p != .required || o.isSome) && (p != .denied || !o.isSome) && p != .inconsistent) = true := by
    intro p w r x b
    cases p <;> cases w <;> cases r <;> cases x <;> cases b <;> decide +kernel
  have := key p w r x b
  rw [h] at this
  simp only [Option.all_some, Bool.and_eq_true, beq_iff_eq, bne_iff_ne, Bool.or_eq_true,
    Bool.not_eq_true'] at this
  obtain ⟨⟨⟨⟨⟨⟨⟨h1, h2⟩, h3⟩, h4⟩, h5⟩, h6⟩, h7⟩, h8⟩ := this
  refine ⟨h1, h2, h3, h4, ?_, fun e => ?_, fun e => ?_, h8⟩
  · intro v hv
    subst hv
    simpa using h5
  · cases h6 with
    | inl h => exact absurd e h
    | inr h => exact h
  · cases h7 with
    | inl h => exact absurd e h
    | inr h => exact h

/-- When the REX byte can be produced. -/
theorem rex_byte_some_iff (p : RexPrefix) (w r x b : Bool) :
    (p.byte w r x b).isSome = true ↔
      p ≠ .inconsistent ∧ (p = .denied → (w || r || x || b) = false) := by
  cases p <;> cases w <;> cases r <;> cases x <;> cases b <;> decide +kernel

theorem code_split (c : Nat) (hc : c ≤ 15) :
    c &&& 7 < 8 ∧ ext ((c &&& 8) != 0) (c &&& 7) = c := by
  have : ∀ c : Fin 16, c.1 &&& 7 < 8 ∧ ext ((c.1 &&& 8) != 0) (c.1 &&& 7) = c.1 := by decide +kernel
  exact this ⟨c, by omega⟩

theorem code_gpr64 (r : Gpr64) : r.registerCode ≤ 15 ∧ Spec.gpr64[r.registerCode]? = some r := by
  cases r <;> decide

/-- What the encoder keeps of a register operand. -/
theorem toReg_facts {o : RegOp} {r : Reg} (h : o.toReg = some r) :
    r.modRmReg < 8 ∧
    ∀ present, (r.rexR = true → present = true) → (r.rexPrefix = .required → present = true) → (r.rexPrefix = .denied → present = false) →
      regOf (classOf o) present (ext r.rexR r.modRmReg) = some o := by
  cases o with
  | r64 q => cases q <;> cases h <;> exact ⟨by decide, fun p _ _ _ => by cases p <;> decide⟩
  | r32 q => cases q <;> cases h <;> exact ⟨by decide, fun p _ _ _ => by cases p <;> decide⟩
  | r16 q => cases q <;> cases h <;> exact ⟨by decide, fun p _ _ _ => by cases p <;> decide⟩
  | xmm q => cases q <;> cases h <;> exact ⟨by decide, fun p _ _ _ => by cases p <;> decide⟩
  | r8 q =>
    cases q <;> cases h <;> refine ⟨by decide, fun p h0 h1 h2 => ?_⟩ <;> cases p <;>
      first | decide | exact absurd (h0 rfl) (by decide) | exact absurd (h1 rfl) (by decide) | exact absurd (h2 rfl) (by decide)

theorem toReg_some (o : RegOp) : ∃ r, o.toReg = some r := by
  cases o with
  | r64 q => cases q <;> exact ⟨_, rfl⟩
  | r32 q => cases q <;> exact ⟨_, rfl⟩
  | r16 q => cases q <;> exact ⟨_, rfl⟩
  | xmm q => cases q <;> exact ⟨_, rfl⟩
  | r8 q => cases q <;> exact ⟨_, rfl⟩

/-- A register as `r/m` operand has the same fields as in the `reg` position. -/
theorem toRm_reg {o : RegOp} {m : Rm} (h : o.toRm = some m) :
    ∃ r, o.toReg = some r ∧ m = ⟨3, r.modRmReg, false, r.rexR, none, none, none, none, r.rexPrefix⟩ := by
  cases o with
  | r64 q => cases q <;> cases h <;> exact ⟨_, rfl, rfl⟩
  | r32 q => cases q <;> cases h <;> exact ⟨_, rfl, rfl⟩
  | r16 q => cases q <;> cases h <;> exact ⟨_, rfl, rfl⟩
  | xmm q => cases q <;> cases h <;> exact ⟨_, rfl, rfl⟩
  | r8 q => cases q <;> cases h <;> exact ⟨_, rfl, rfl⟩

theorem toRm_reg_some (o : RegOp) : ∃ r, o.toRm = some r := by
  cases o with
  | r64 q => cases q <;> exact ⟨_, rfl⟩
  | r32 q => cases q <;> exact ⟨_, rfl⟩
  | r16 q => cases q <;> exact ⟨_, rfl⟩
  | xmm q => cases q <;> exact ⟨_, rfl⟩
  | r8 q => cases q <;> exact ⟨_, rfl⟩

theorem leBytes_length (n : Nat) (v : Int) : (leBytes n v).length = n := by
  induction n generalizing v with
  | zero => rfl
  | succ n ih => simp [leBytes, ih]

theorem leBytes_lt (n : Nat) (v : Int) : ∀ b ∈ leBytes n v, b < 256 := by
  induction n generalizing v with
  | zero => simp [leBytes]
  | succ n ih =>
    intro b hb
    rw [leBytes, List.mem_cons] at hb
    rcases hb with rfl | hb
    · omega
    · exact ih _ b hb

theorem emod_step (a q M : Int) (h0 : 0 ≤ a) (h1 : a < 256) (hM : 0 < M) :
    a + 256 * (q % M) = (a + 256 * q) % (256 * M) := by
  have h2 := Int.emod_add_mul_ediv q M
  have h3 := Int.emod_nonneg q (by omega : M ≠ 0)
  have h4 := Int.emod_lt_of_pos q hM
  generalize q % M = r at *
  generalize q / M = k at *
  subst h2
  have : a + 256 * (r + M * k) = (a + 256 * r) + (256 * M) * k := by
    rw [Int.mul_add, Int.mul_assoc, Int.add_assoc]
  rw [this, Int.add_mul_emod_self_left, Int.emod_eq_of_lt] <;> omega

/-- Little-endian bytes give the value back modulo `256^n`. -/
theorem leVal_leBytes (n : Nat) (v : Int) : (leVal (leBytes n v) : Int) = v % (256 ^ n : Nat) := by
  induction n generalizing v with
  | zero => simp [leBytes, leVal]
  | succ n ih =>
    rw [leBytes, leVal, Int.natCast_add, Int.natCast_mul, ih]
    have h0 : 0 ≤ v % 256 := by omega
    rw [Int.toNat_of_nonneg h0]
    have hp : (256 ^ (n + 1) : Nat) = 256 * 256 ^ n := by rw [Nat.pow_succ, Nat.mul_comm]
    rw [hp, Int.natCast_mul]
    have hM : 0 < 256 ^ n := Nat.pow_pos (by omega)
    have := emod_step (v % 256) (v / 256) ((256 ^ n : Nat) : Int) h0 (by omega) (by omega)
    rw [show v % 256 + 256 * (v / 256) = v by omega] at this
    exact this

/-- Two's complement round trip. -/
theorem signedVal_leBytes (n : Nat) (v : Int) (h1 : -((256 ^ n : Nat) : Int) ≤ 2 * v)
    (h2 : 2 * v < ((256 ^ n : Nat) : Int)) : signedVal (leBytes n v) = v := by
  have h := leVal_leBytes n v
  unfold signedVal
  rw [leBytes_length]
  generalize 256 ^ n = M at *
  by_cases hv : 0 ≤ v
  · rw [Int.emod_eq_of_lt hv (by omega)] at h
    rw [if_pos (by omega)]
    exact h
  · have : v % (M : Int) = v + M := by
      rw [← Int.add_emod_right, Int.emod_eq_of_lt (by omega) (by omega)]
    rw [this] at h
    rw [if_neg (by omega)]
    omega

theorem readDisp_append (d : List Nat) (n : Nat) (hn : d.length = n) (rest : List Nat) :
    readDisp n (d ++ rest) = some (signedVal d, rest) := by
  subst hn
  simp [readDisp, takeBytes]

theorem readDisp_zero (rest : List Nat) : readDisp 0 rest = some (0, rest) := by
  have := readDisp_append [] 0 rfl rest
  simpa [signedVal, leVal] using this

theorem readDisp_disp (d : Displacement) (hd : d.InRange) (rest : List Nat) :
    readDisp (if d.modRmMod = 0 then 0 else if d.modRmMod = 1 then 1 else 4) (d.bytes ++ rest)
      = some (dispVal d, rest) := by
  cases d with
  | disp8 v =>
    simp only [Displacement.InRange] at hd
    have := readDisp_append (leBytes 1 v) 1 (leBytes_length 1 v) rest
    rw [signedVal_leBytes 1 v (by omega) (by omega)] at this
    simpa [Displacement.modRmMod, Displacement.bytes, dispVal] using this
  | disp32 v =>
    simp only [Displacement.InRange] at hd
    have := readDisp_append (leBytes 4 v) 4 (leBytes_length 4 v) rest
    rw [signedVal_leBytes 4 v (by omega) (by omega)] at this
    simpa [Displacement.modRmMod, Displacement.bytes, dispVal] using this

theorem readDisp_32 (v : Int) (h : -2147483648 ≤ v ∧ v < 2147483648) (rest : List Nat) :
    readDisp 4 (leBytes 4 v ++ rest) = some (v, rest) := by
  have := readDisp_append (leBytes 4 v) 4 (leBytes_length 4 v) rest
  rwa [signedVal_leBytes 4 v (by omega) (by omega)] at this

theorem readDisp_8 (v : Int) (h : -128 ≤ v ∧ v < 128) (rest : List Nat) :
    readDisp 1 (leBytes 1 v ++ rest) = some (v, rest) := by
  have := readDisp_append (leBytes 1 v) 1 (leBytes_length 1 v) rest
  rwa [signedVal_leBytes 1 v (by omega) (by omega)] at this

end Verif.Asm
