import Verif.XxHash.Model
import Verif.XxHash.Spec

/-!
# The operations of the model against the specification
-/
namespace Verif.XxHash

theorem prime1_eq : prime1 = Spec.p1 := by decide
theorem prime2_eq : prime2 = Spec.p2 := by decide
theorem prime3_eq : prime3 = Spec.p3 := by decide
theorem prime4_eq : prime4 = Spec.p4 := by decide
theorem prime5_eq : prime5 = Spec.p5 := by decide

theorem rotl_eq (x : Word) {b : Nat} (h : b < 64) : rotl x b = x.rotateLeft b := by
  rw [BitVec.rotateLeft_def, Nat.mod_eq_of_lt h, rotl]

theorem round_eq (acc input : Word) : round acc input = Spec.mix acc input := by
  rw [round, Spec.mix, rotl_eq _ (by decide), prime1_eq, prime2_eq]

theorem mergeRound_eq (acc val : Word) : mergeRound acc val = Spec.mergeAcc acc val := by
  rw [mergeRound, Spec.mergeAcc, round_eq, prime1_eq, prime4_eq]

theorem avalanche_eq (x : Word) : avalanche x = Spec.avalanche x := by
  rw [avalanche, Spec.avalanche, prime2_eq, prime3_eq]

theorem append_toNat {n m : Nat} (x : BitVec n) (y : BitVec m) : (x ++ y).toNat = x.toNat * 2 ^ m + y.toNat := by
  rw [BitVec.toNat_append, ← Nat.shiftLeft_add_eq_or_of_lt y.isLt, Nat.shiftLeft_eq]

theorem value_lt (bs : List Byte) : Spec.value bs < 256 ^ bs.length := by
  induction bs with
  | nil => simp [Spec.value]
  | cons b bs ih =>
    have := b.isLt
    rw [Spec.value, List.length_cons, Nat.pow_succ]
    omega

theorem load64_eq (bs : List Byte) (h : bs.length = 8) : load64 bs = some (Spec.word bs) := by
  match bs, h with
  | [b0, b1, b2, b3, b4, b5, b6, b7], _ =>
    rw [load64]
    congr 1
    apply BitVec.eq_of_toNat_eq
    have e := value_lt [b0, b1, b2, b3, b4, b5, b6, b7]
    rw [Spec.word, BitVec.toNat_ofNat, Nat.mod_eq_of_lt (by simpa using e)]
    simp only [append_toNat, Spec.value]
    generalize b0.toNat = n0
    generalize b1.toNat = n1
    generalize b2.toNat = n2
    generalize b3.toNat = n3
    generalize b4.toNat = n4
    generalize b5.toNat = n5
    generalize b6.toNat = n6
    generalize b7.toNat = n7
    omega

theorem load32_eq (bs : List Byte) (h : bs.length = 4) : load32 bs = some (BitVec.ofNat 32 (Spec.value bs)) := by
  match bs, h with
  | [b0, b1, b2, b3], _ =>
    rw [load32]
    congr 1
    apply BitVec.eq_of_toNat_eq
    have e := value_lt [b0, b1, b2, b3]
    rw [BitVec.toNat_ofNat, Nat.mod_eq_of_lt (by simpa using e)]
    simp only [append_toNat, Spec.value]
    omega

theorem skip_eq (n : Nat) (s : List Byte) : skip n s = s.drop n := by
  unfold skip
  by_cases h : n ≤ s.length
  · rw [Nat.min_eq_left h]
  · rw [Nat.min_eq_right (by omega), List.drop_length, List.drop_eq_nil_of_le (by omega)]

/-! ## Stripes -/

theorem stripes_succ (v : Spec.Acc) (n : Nat) (s : List Byte) :
    Spec.stripes v (n + 1) s = Spec.stripe (Spec.stripes v n s) ((s.drop (32 * n)).take 32) := by
  induction n generalizing v s with
  | zero => simp [Spec.stripes]
  | succ n ih =>
    rw [Spec.stripes, ih (Spec.stripe v (s.take 32)) (s.drop 32), Spec.stripes.eq_2 v s n, List.drop_drop]
    have : 32 + 32 * n = 32 * (n + 1) := by omega
    rw [this]

/-- The stripes of a longer text are those of the beginning. -/
theorem stripes_append (v : Spec.Acc) (n : Nat) (s t : List Byte) (h : 32 * n ≤ s.length) :
    Spec.stripes v n (s ++ t) = Spec.stripes v n s := by
  induction n with
  | zero => rfl
  | succ n ih =>
    rw [stripes_succ, stripes_succ, ih (by omega), List.drop_append_of_le_length (by omega),
      List.take_append_of_le_length (by simp; omega)]

theorem stripe_take (v : Spec.Acc) (s : List Byte) : Spec.stripe v (s.take 32) = Spec.stripe v s := by
  have e (i : Nat) (h : i + 8 ≤ 32) : ((s.take 32).drop i).take 8 = (s.drop i).take 8 := by
    rw [List.drop_take, List.take_take, Nat.min_eq_left (by omega)]
  have e0 := e 0 (by omega)
  simp only [List.drop_zero] at e0
  rw [Spec.stripe, Spec.stripe, e0, e 8 (by omega), e 16 (by omega), e 24 (by omega)]

/-! ## The buffer -/

theorem copy_ok (src : List Byte) (n off : Nat) (mem : List Byte) (h : n ≤ src.length) (h' : off + n ≤ mem.length) :
    copy src n off mem = some (mem.take off ++ src.take n ++ mem.drop (off + n)) := if_pos ⟨h, h'⟩

def accOf (st : State) : Spec.Acc := ⟨st.v1, st.v2, st.v3, st.v4⟩

theorem rounds_eq (st : State) (h : st.mem.length = 32) :
    ∃ st', rounds st = some st' ∧ accOf st' = Spec.stripe (accOf st) st.mem ∧ st'.mem = st.mem ∧ st'.memSize = st.memSize ∧
      st'.totalLen = st.totalLen := by
  rw [rounds, load64_eq _ (by simp; omega), load64_eq _ (by simp; omega), load64_eq _ (by simp; omega), load64_eq _ (by simp; omega)]
  refine ⟨_, rfl, ?_, rfl, rfl, rfl⟩
  simp only [accOf, Spec.stripe, round_eq]

/-- What the state holds after the bytes `s`: the accumulators of the whole stripes and the rest in the buffer. -/
structure Holds (seed : Word) (s : List Byte) (st : State) : Prop where
  total : st.totalLen = s.length % 2 ^ 64
  acc : accOf st = Spec.stripes (Spec.start seed) (s.length / 32) s
  memLen : st.mem.length = 32
  size : st.memSize = s.length % 32
  rest : st.mem.take st.memSize = s.drop (32 * (s.length / 32))

/-- The loop over the chunks, on a text whose first part is a whole number of stripes. -/
theorem chunks_eq (seed : Word) (fuel : Nat) (done input : List Byte) (st : State) (hf : input.length < fuel) (hd : 32 ∣ done.length)
    (hacc : accOf st = Spec.stripes (Spec.start seed) (done.length / 32) done) (hm : st.mem.length = 32) :
    ∃ st', chunks fuel input st = some (input.drop (32 * (input.length / 32)), st') ∧ st'.mem.length = 32 ∧ st'.memSize = st.memSize ∧
      accOf st' = Spec.stripes (Spec.start seed) ((done ++ input).length / 32) (done ++ input) := by
  induction fuel generalizing done input st with
  | zero => omega
  | succ fuel ih =>
    obtain ⟨k, hk⟩ := hd
    rw [chunks]
    by_cases h : chunkSize ≤ input.length
    · have h32 : 32 ≤ input.length := h
      rw [if_pos h, copy_ok input chunkSize 0 st.mem h (by rw [hm]; decide)]
      have hmem : (st.mem.take 0 ++ input.take chunkSize ++ st.mem.drop (0 + chunkSize)).length = 32 := by
        simp [chunkSize, hm]; omega
      have hmem' : st.mem.take 0 ++ input.take chunkSize ++ st.mem.drop (0 + chunkSize) = input.take 32 := by
        rw [List.drop_eq_nil_of_le (by rw [hm]; decide)]; simp [chunkSize]
      simp only [Option.bind_eq_bind, Option.bind_some]
      obtain ⟨st1, e1, a1, m1, z1, _⟩ := rounds_eq { st with mem := st.mem.take 0 ++ input.take chunkSize ++ st.mem.drop (0 + chunkSize) } hmem
      rw [e1]
      simp only [Option.bind_some, skip_eq]
      have hsplit : done ++ input = (done ++ input.take 32) ++ input.drop 32 := by simp
      obtain ⟨st2, e2, m2, z2, a2⟩ := ih (done ++ input.take 32) (input.drop 32) st1 (by simp; omega)
        ⟨k + 1, by simp; omega⟩ (by
          rw [a1, hmem', stripe_take]
          have hl : (done ++ input.take 32).length / 32 = k + 1 := by simp; omega
          have hk' : done.length / 32 = k := by omega
          rw [hl, stripes_succ, stripes_append _ _ _ _ (by omega), List.drop_left' (by omega)]
          rw [List.take_take, Nat.min_self, stripe_take]
          congr 1
          rw [← hk', ← hacc]; rfl) (by rw [m1]; exact hmem)
      refine ⟨st2, ?_, m2, by rw [z2, z1], by rw [hsplit]; exact a2⟩
      have : (input.drop 32).drop (32 * ((input.drop 32).length / 32)) = input.drop (32 * (input.length / 32)) := by
        rw [List.drop_drop, List.length_drop]
        congr 1
        omega
      rw [← this]
      exact e2
    · have h32 : ¬ 32 ≤ input.length := h
      rw [if_neg h]
      refine ⟨st, ?_, hm, rfl, ?_⟩
      · have : input.length / 32 = 0 := by omega
        rw [this]; rfl
      · have : (done ++ input).length / 32 = done.length / 32 := by simp; omega
        rw [this, stripes_append _ _ _ _ (by omega), hacc]

/-- Filling up the buffer: after it the text so far is a whole number of stripes. -/
theorem fill_eq (seed : Word) (s : List Byte) (st : State) (ha : accOf st = Spec.stripes (Spec.start seed) (s.length / 32) s)
    (hm : st.mem.length = 32) (hs : st.memSize = s.length % 32) (hr : st.mem.take st.memSize = s.drop (32 * (s.length / 32)))
    (input : List Byte) (hbig : 32 ≤ st.memSize + input.length) :
    ∃ st1 done rest, fill input st = some (rest, st1) ∧ s ++ input = done ++ rest ∧ 32 ∣ done.length ∧
      accOf st1 = Spec.stripes (Spec.start seed) (done.length / 32) done ∧ st1.mem.length = 32 ∧ st1.memSize = 0 ∧
      rest.length ≤ input.length := by
  have hs32 : st.memSize < 32 := by omega
  have hdiv : s.length = 32 * (s.length / 32) + st.memSize := by omega
  unfold fill
  by_cases hz : 0 < st.memSize
  · rw [if_pos hz]
    have hc : chunkSize - st.memSize = 32 - st.memSize := rfl
    have hcopy := copy_ok input (32 - st.memSize) st.memSize st.mem (by omega) (by omega)
    have hdrop : st.mem.drop (st.memSize + (32 - st.memSize)) = [] := List.drop_eq_nil_of_le (by omega)
    rw [hdrop, List.append_nil, hr] at hcopy
    simp only [hc, hcopy, Option.bind_eq_bind, Option.bind_some, skip_eq]
    have hmem : (s.drop (32 * (s.length / 32)) ++ input.take (32 - st.memSize)).length = 32 := by
      rw [List.length_append, List.length_drop, List.length_take]; omega
    obtain ⟨st1, e1, a1, m1, z1, _⟩ := rounds_eq { st with mem := s.drop (32 * (s.length / 32)) ++ input.take (32 - st.memSize) } hmem
    rw [e1, Option.bind_some]
    have hlen : (s ++ input.take (32 - st.memSize)).length = 32 * (s.length / 32 + 1) := by
      rw [List.length_append, List.length_take]; omega
    refine ⟨{ st1 with memSize := 0 }, s ++ input.take (32 - st.memSize), input.drop (32 - st.memSize), rfl, ?_, ⟨_, hlen⟩, ?_, ?_, rfl, ?_⟩
    · rw [List.append_assoc, List.take_append_drop]
    · have hl1 : (s ++ input.take (32 - st.memSize)).length / 32 = s.length / 32 + 1 := by omega
      have hacc1 : accOf { st1 with memSize := 0 } = accOf st1 := rfl
      rw [hacc1, a1, hl1, stripes_succ, stripes_append _ _ _ _ (by omega), List.drop_append_of_le_length (by omega), ← ha,
        List.take_of_length_le (l := s.drop (32 * (s.length / 32)) ++ input.take (32 - st.memSize)) (by omega)]
      rfl
    · exact m1 ▸ hmem
    · rw [List.length_drop]; omega
  · rw [if_neg hz]
    exact ⟨st, s, input, rfl, rfl, ⟨s.length / 32, by omega⟩, ha, hm, by omega, Nat.le_refl _⟩

/-- Writing bytes. -/
theorem update_eq {seed : Word} {s : List Byte} {st : State} (h : Holds seed s st) (input : List Byte) (hl : input.length + 32 ≤ 2 ^ 64) :
    ∃ st', update input st = some st' ∧ Holds seed (s ++ input) st' := by
  obtain ⟨ht, ha, hm, hs, hr⟩ := h
  have hs32 : st.memSize < 32 := by omega
  have htot : (st.totalLen + input.length) % 2 ^ 64 = (s ++ input).length % 2 ^ 64 := by
    rw [ht, List.length_append]; omega
  have hsum : (st.memSize + input.length) % 2 ^ 64 = st.memSize + input.length := Nat.mod_eq_of_lt (by omega)
  have hdiv : s.length = 32 * (s.length / 32) + st.memSize := by omega
  rw [update]
  simp only [hsum, htot]
  by_cases hsmall : st.memSize + input.length < chunkSize
  · have hsmall' : st.memSize + input.length < 32 := hsmall
    rw [if_pos hsmall, copy_ok input input.length st.memSize st.mem (Nat.le_refl _) (by omega)]
    simp only [Option.bind_eq_bind, Option.bind_some]
    refine ⟨_, rfl, ?_, ?_, ?_, ?_, ?_⟩
    · simp only
    · have : (s ++ input).length / 32 = s.length / 32 := by simp; omega
      rw [this, stripes_append _ _ _ _ (by omega), ← ha]; rfl
    · simp only [List.length_append, List.length_take, List.length_drop]; omega
    · simp only [List.length_append]; omega
    · have : (s ++ input).length / 32 = s.length / 32 := by simp; omega
      simp only
      rw [this, List.drop_append_of_le_length (by omega), ← hr, List.take_length]
      rw [List.take_append_of_le_length (by simp; omega), List.take_of_length_le (by simp; omega)]
  · have hbig : 32 ≤ st.memSize + input.length := by
      have : ¬ st.memSize + input.length < 32 := hsmall
      omega
    rw [if_neg hsmall]
    -- after filling up, the text so far is a whole number of stripes
    obtain ⟨st1, done, rest, e1, hsplit, hd, ha1, hm1, hz1, hle⟩ := fill_eq seed s st ha hm hs hr input hbig
    rw [e1]
    simp only [Option.bind_eq_bind, Option.bind_some]
    obtain ⟨st2, e2, m2, z2, a2⟩ := chunks_eq seed (rest.length + 1) done rest st1 (by omega) hd ha1 hm1
    rw [e2]
    simp only [Option.bind_some]
    obtain ⟨k, hk⟩ := hd
    have hrest : (s ++ input).drop (32 * ((s ++ input).length / 32)) = rest.drop (32 * (rest.length / 32)) := by
      have hl2 : 32 * ((s ++ input).length / 32) = done.length + 32 * (rest.length / 32) := by
        rw [hsplit, List.length_append]; omega
      rw [hl2, hsplit, ← List.drop_drop, List.drop_left]
    have hrl : (rest.drop (32 * (rest.length / 32))).length = (s ++ input).length % 32 := by
      rw [hsplit]; simp; omega
    rw [← hsplit] at a2
    by_cases hpos : 0 < (rest.drop (32 * (rest.length / 32))).length
    · rw [if_pos hpos, copy_ok _ _ _ _ (Nat.le_refl _) (by rw [m2, hrl]; omega)]
      simp only [Option.bind_some]
      refine ⟨_, rfl, ?_, a2, ?_, hrl, ?_⟩
      · simp only
      · simp only [List.take_zero, List.nil_append, List.take_length, List.length_append]
        rw [List.length_drop (l := st2.mem), m2, hrl]
        omega
      · simp only
        rw [List.take_zero, List.nil_append, List.take_length, List.take_append_of_le_length (Nat.le_refl _), List.take_length, hrest]
    · rw [if_neg hpos]
      refine ⟨_, rfl, ?_, a2, m2, ?_, ?_⟩
      · simp only
      · simp only
        rw [z2, hz1]; omega
      · simp only
        rw [z2, hz1, hrest, List.take_zero]
        exact (List.length_eq_zero_iff.1 (by omega)).symm

/-! ## The digest -/

theorem final8_step (fuel : Nat) (d : List Byte) (x : Word) (h : 8 ≤ d.length) :
    final8 (fuel + 1) d x = final8 fuel (d.drop 8) (Spec.lane8 (d.take 8) x) := by
  rw [final8, if_pos h, load64_eq _ (by simp; omega), Option.bind_eq_bind, Option.bind_some, skip_eq, round_eq, rotl_eq _ (by decide),
    prime1_eq, prime4_eq, Spec.lane8]

theorem lanes8_step (d : List Byte) (x : Word) (h : 8 ≤ d.length) :
    Spec.lanes8 (d.length / 8) d x =
      Spec.lanes8 ((d.drop 8).length / 8) (d.drop 8) (Spec.lane8 (d.take 8) x) := by
  have e : d.length / 8 = (d.drop 8).length / 8 + 1 := by
    rw [← Nat.add_div_right _ (by decide : 0 < 8), List.length_drop, Nat.sub_add_cancel h]
  rw [e, Spec.lanes8, Spec.cut8, List.foldl_cons, Spec.lanes8]

theorem drop8_step (d : List Byte) (h : 8 ≤ d.length) : (d.drop 8).drop (8 * ((d.drop 8).length / 8)) = d.drop (8 * (d.length / 8)) := by
  rw [List.drop_drop, List.length_drop]
  have : 8 + 8 * ((d.length - 8) / 8) = 8 * (d.length / 8) := by omega
  rw [this]

theorem final8_eq (fuel : Nat) (d : List Byte) (x : Word) (hf : d.length < fuel) :
    final8 fuel d x = some (d.drop (8 * (d.length / 8)), Spec.lanes8 (d.length / 8) d x) := by
  induction fuel generalizing d x with
  | zero => omega
  | succ fuel ih =>
    by_cases h : 8 ≤ d.length
    · rw [final8_step fuel d x h, ih (d.drop 8) _ (by rw [List.length_drop]; omega), drop8_step d h, lanes8_step d x h]
    · rw [final8, if_neg h]
      have : d.length / 8 = 0 := by omega
      rw [this, Spec.lanes8, Spec.cut8, Nat.mul_zero, List.drop_zero, List.foldl_nil]

theorem final1_eq (d : List Byte) (x : Word) : final1 d x = Spec.lanes1 d x := by
  have e : byteStep = fun acc b => Spec.lane1 b acc := by
    funext acc b
    rw [byteStep, Spec.lane1, rotl_eq _ (by decide), prime5_eq, prime1_eq]
  rw [final1, Spec.lanes1, e]

theorem finalize_eq (x : Word) (d : List Byte) : finalize x d = some (Spec.avalanche (Spec.consume Spec.signed4 d x)) := by
  rw [finalize, final8_eq _ _ _ (by omega)]
  simp only [Option.bind_eq_bind, Option.bind_some, final4]
  by_cases h : 4 ≤ (d.drop (8 * (d.length / 8))).length
  · rw [if_pos h, load32_eq _ (by rw [List.length_take]; omega)]
    simp only [Option.bind_some, skip_eq]
    rw [avalanche_eq, final1_eq, rotl_eq _ (by decide), prime1_eq, prime2_eq, prime3_eq, Spec.consume,
      if_pos h, Spec.lane4, Spec.signed4]
  · rw [if_neg h]
    simp only [Option.bind_some]
    rw [avalanche_eq, final1_eq, Spec.consume, if_neg h]

/-- The accumulator before the rest is consumed, of a text of any length: the code keeps the length modulo `2 ^ 64`. -/
def gathered (seed : Word) (s : List Byte) : Word :=
  (if s.length % 2 ^ 64 < 32 then (Spec.stripes (Spec.start seed) (s.length / 32) s).c + Spec.p5
    else Spec.converge (Spec.stripes (Spec.start seed) (s.length / 32) s)) + BitVec.ofNat 64 s.length

/-- The digest of a text of any length. -/
def digestOf (seed : Word) (s : List Byte) : Word :=
  Spec.avalanche (Spec.consume Spec.signed4 (s.drop (32 * (s.length / 32))) (gathered seed s))

theorem digestOf_eq (seed : Word) (s : List Byte) (h : s.length < 2 ^ 64) : digestOf seed s = Spec.xxh64With Spec.signed4 seed s := by
  rw [digestOf, Spec.xxh64With, gathered, Spec.gather, Nat.mod_eq_of_lt h]
  by_cases hc : s.length < 32
  · have : s.length / 32 = 0 := by omega
    rw [if_pos hc, if_pos hc, this]
    rfl
  · rw [if_neg hc, if_neg hc]

theorem digest_eq {seed : Word} {s : List Byte} {st : State} (h : Holds seed s st) : digest st = some (digestOf seed s) := by
  obtain ⟨ht, ha, hm, hs, hr⟩ := h
  rw [digest]
  simp only
  rw [if_pos (by omega), finalize_eq, hr, digestOf]
  congr 3
  rw [gathered]
  have hn : BitVec.ofNat 64 st.totalLen = BitVec.ofNat 64 s.length := by
    apply BitVec.eq_of_toNat_eq
    rw [BitVec.toNat_ofNat, BitVec.toNat_ofNat, ht, Nat.mod_mod]
  rw [hn]
  congr 1
  rw [ht]
  by_cases hc : chunkSize ≤ s.length % 2 ^ 64
  · have hc' : 32 ≤ s.length % 2 ^ 64 := hc
    rw [if_pos hc, if_neg (by omega), ← ha]
    simp only [mergeRound_eq, rotl_eq _ (show 1 < 64 by decide), rotl_eq _ (show 7 < 64 by decide), rotl_eq _ (show 12 < 64 by decide),
      rotl_eq _ (show 18 < 64 by decide)]
    rfl
  · have hc' : ¬ 32 ≤ s.length % 2 ^ 64 := hc
    rw [if_neg hc, if_pos (by omega), ← ha, prime5_eq]
    rfl

theorem withSeed_holds (seed : Word) : Holds seed [] (withSeed seed) := by
  refine ⟨rfl, ?_, rfl, rfl, rfl⟩
  simp only [accOf, withSeed, prime1_eq, prime2_eq]
  rfl

theorem reset_holds {seed : Word} {s : List Byte} {st : State} (h : Holds seed s st) : Holds seed [] (reset seed st) := by
  refine ⟨rfl, ?_, h.memLen, rfl, rfl⟩
  simp only [accOf, reset, prime1_eq, prime2_eq]
  rfl

end Verif.XxHash
