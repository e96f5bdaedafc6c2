import Verif.XxHash.Lemmas

/-!
# C42: the digest does not depend on the chunks; C58: it is XXH64, except for one sign extension
-/
namespace Verif.XxHash

/-! ## Chunks -/

/-- The bytes written since the beginning or the last reset at each call of `finish`. -/
def texts : List Op → List Byte → List (List Byte)
  | [], _ => []
  | .write bytes :: ops, s => texts ops (s ++ bytes)
  | .finish :: ops, s => s :: texts ops s
  | .reset :: ops, _ => texts ops []

/-- Lengths an array of bytes can have. -/
def Sized : Op → Prop
  | .write bytes => bytes.length + 32 ≤ 2 ^ 64
  | _ => True

theorem run_from {seed : Word} (ops : List Op) (h : ∀ op ∈ ops, Sized op) {s : List Byte} {st : State} (hs : Holds seed s st) :
    run seed ops st = some ((texts ops s).map (digestOf seed)) := by
  induction ops generalizing s st with
  | nil => rfl
  | cons op ops ih =>
    have h' := fun o ho => h o (List.mem_cons_of_mem _ ho)
    cases op with
    | write bytes =>
      obtain ⟨st', e, hs'⟩ := update_eq hs bytes (h _ (List.mem_cons_self ..))
      rw [run, e, Option.bind_eq_bind, Option.bind_some, ih h' hs', texts]
    | finish =>
      rw [run, digest_eq hs, Option.bind_eq_bind, Option.bind_some, Option.bind_eq_bind, ih h' hs, Option.bind_some, texts, List.map_cons]
    | reset => rw [run, ih h' (reset_holds hs), texts]

/-- **C42.** Whatever operations are run on a hasher, no copy or load leaves its block and each digest is a function of the seed and of the
bytes written since the last reset: two histories with the same bytes at each `finish`, cut in any way, give the same digests. -/
theorem chunking_independent (seed : Word) (ops ops' : List Op) (h : ∀ op ∈ ops, Sized op) (h' : ∀ op ∈ ops', Sized op)
    (e : texts ops [] = texts ops' []) :
    ∃ ds, run seed ops (withSeed seed) = some ds ∧ run seed ops' (withSeed seed) = some ds ∧ ds.length = (texts ops []).length :=
  ⟨_, run_from ops h (withSeed_holds seed), by rw [e]; exact run_from ops' h' (withSeed_holds seed), List.length_map ..⟩

theorem texts_writes (cs : List (List Byte)) (s : List Byte) : texts (cs.map .write ++ [.finish]) s = [s ++ cs.flatten] := by
  induction cs generalizing s with
  | nil => simp [texts]
  | cons c cs ih =>
    rw [List.map_cons, List.cons_append, texts, ih, List.flatten_cons, List.append_assoc]

/-- **C42.** The property as stated: any partition of a byte sequence. -/
theorem partition_independent (seed : Word) (cs cs' : List (List Byte)) (h : ∀ c ∈ cs, c.length + 32 ≤ 2 ^ 64)
    (h' : ∀ c ∈ cs', c.length + 32 ≤ 2 ^ 64) (e : cs.flatten = cs'.flatten) :
    ∃ d, run seed (cs.map .write ++ [.finish]) (withSeed seed) = some [d] ∧ run seed (cs'.map .write ++ [.finish]) (withSeed seed) = some [d] := by
  have hs : ∀ cs : List (List Byte), (∀ c ∈ cs, c.length + 32 ≤ 2 ^ 64) → ∀ op ∈ cs.map Op.write ++ [.finish], Sized op := by
    intro cs h op hop
    rcases List.mem_append.1 hop with hop | hop
    · obtain ⟨c, hc, rfl⟩ := List.mem_map.1 hop
      exact h c hc
    · rw [List.mem_singleton.1 hop]; trivial
  refine ⟨digestOf seed cs.flatten, ?_, ?_⟩
  · rw [run_from _ (hs cs h) (withSeed_holds seed), texts_writes]; rfl
  · rw [run_from _ (hs cs' h') (withSeed_holds seed), texts_writes, ← e]; rfl

/-! ## XXH64 -/

/-- What is computed is XXH64 with the remaining lane of 4 bytes read as a signed number. -/
theorem digest_signed (seed : Word) (s : List Byte) (h : s.length + 32 ≤ 2 ^ 64) :
    run seed [.write s, .finish] (withSeed seed) = some [Spec.xxh64With Spec.signed4 seed s] := by
  rw [run_from _ _ (withSeed_holds seed), texts, texts, texts, List.nil_append, List.map_cons, List.map_nil, digestOf_eq _ _ (by omega)]
  intro op hop
  rcases List.mem_cons.1 hop with rfl | hop
  · exact h
  · rw [List.mem_singleton.1 hop]; trivial

theorem mul_inj {p q : Word} (h : p * q = 1#64) {x y : Word} (e : x * p = y * p) : x = y := by
  have : x * p * q = y * p * q := by rw [e]
  rwa [BitVec.mul_assoc, BitVec.mul_assoc, h, BitVec.mul_one, BitVec.mul_one] at this

theorem p1_inv : Spec.p1 * 614540362697595703#64 = 1#64 := by decide
theorem p2_inv : Spec.p2 * 839798700976720815#64 = 1#64 := by decide
theorem p3_inv : Spec.p3 * 16855272203555305545#64 = 1#64 := by decide

theorem rotateLeft_inj {x y : Word} {r : Nat} (h : r < 64) (e : x.rotateLeft r = y.rotateLeft r) : x = y := by
  apply BitVec.eq_of_getLsbD_eq
  intro i hi
  by_cases hir : i + r < 64
  · have := congrArg (fun z : Word => z.getLsbD (i + r)) e
    simp only [BitVec.getLsbD_rotateLeft, Nat.mod_eq_of_lt h] at this
    rw [decide_eq_false (by omega), decide_eq_true hir] at this
    simpa using this
  · have := congrArg (fun z : Word => z.getLsbD (i + r - 64)) e
    simp only [BitVec.getLsbD_rotateLeft, Nat.mod_eq_of_lt h] at this
    rw [decide_eq_true (by omega)] at this
    have hj : 64 - r + (i + r - 64) = i := by omega
    simpa [hj] using this

theorem xorshift_inj {x y : Word} {k : Nat} (hk : 0 < k) (e : x ^^^ (x >>> k) = y ^^^ (y >>> k)) : x = y := by
  apply BitVec.eq_of_getLsbD_eq
  have key : ∀ d i, 64 ≤ i + d → x.getLsbD i = y.getLsbD i := by
    intro d
    induction d with
    | zero =>
      intro i hi
      rw [BitVec.getLsbD_of_ge _ _ (by omega), BitVec.getLsbD_of_ge _ _ (by omega)]
    | succ d ih =>
      intro i hi
      have := congrArg (fun z : Word => z.getLsbD i) e
      simp only [BitVec.getLsbD_xor, BitVec.getLsbD_ushiftRight] at this
      rw [ih (k + i) (by omega)] at this
      simpa using this
  intro i _
  exact key 64 i (by omega)

theorem avalanche_inj {x y : Word} (e : Spec.avalanche x = Spec.avalanche y) : x = y := by
  rw [Spec.avalanche, Spec.avalanche] at e
  have e := xorshift_inj (by decide) e
  have e := mul_inj p3_inv e
  have e := xorshift_inj (by decide) e
  have e := mul_inj p2_inv e
  exact xorshift_inj (by decide) e

theorem lane1_inj {b : Byte} {x y : Word} (e : Spec.lane1 b x = Spec.lane1 b y) : x = y := by
  rw [Spec.lane1, Spec.lane1] at e
  exact (BitVec.xor_left_inj _).1 (rotateLeft_inj (by decide) (mul_inj p1_inv e))

theorem lanes1_inj {s : List Byte} {x y : Word} (e : Spec.lanes1 s x = Spec.lanes1 s y) : x = y := by
  induction s generalizing x y with
  | nil => exact e
  | cons b s ih =>
    rw [Spec.lanes1, Spec.lanes1, List.foldl_cons, List.foldl_cons] at e
    exact lane1_inj (ih e)

theorem lane4_inj {read read' : Spec.Lane4} {s : List Byte} {acc : Word} (e : Spec.lane4 read s acc = Spec.lane4 read' s acc) :
    read s = read' s := by
  rw [Spec.lane4, Spec.lane4] at e
  exact mul_inj p1_inv ((BitVec.xor_right_inj _).1 (rotateLeft_inj (by decide) (mul_inj p2_inv ((BitVec.add_left_inj _).1 e))))

/-- Two ways to read a lane of 4 bytes give the same hash exactly if they read the remaining lane, if there is one, alike. -/
theorem xxh64With_eq_iff (read read' : Spec.Lane4) (seed : Word) (s : List Byte) :
    Spec.xxh64With read seed s = Spec.xxh64With read' seed s ↔ ∀ w, Spec.rest4 s = some w → read w = read' w := by
  have hr : Spec.rest4 s = if 4 ≤ ((s.drop (32 * (s.length / 32))).drop (8 * ((s.drop (32 * (s.length / 32))).length / 8))).length then
      some (((s.drop (32 * (s.length / 32))).drop (8 * ((s.drop (32 * (s.length / 32))).length / 8))).take 4) else none := rfl
  rw [hr, Spec.xxh64With, Spec.xxh64With]
  generalize s.drop (32 * (s.length / 32)) = t
  generalize Spec.gather seed s = acc
  rw [Spec.consume, Spec.consume]
  generalize Spec.lanes8 (t.length / 8) t acc = acc
  generalize t.drop (8 * (t.length / 8)) = t
  by_cases h : 4 ≤ t.length
  · rw [if_pos h, if_pos h, if_pos h]
    constructor
    · rintro e w ⟨⟩
      exact lane4_inj (lanes1_inj (avalanche_inj e))
    · intro hw
      rw [Spec.lane4, Spec.lane4, hw _ rfl]
  · rw [if_neg h, if_neg h, if_neg h]
    exact ⟨(fun _ w hw => by cases hw), fun _ => rfl⟩

theorem signed4_iff (w : List Byte) (h : w.length = 4) : Spec.signed4 w = Spec.word w ↔ Spec.value w < 2 ^ 31 := by
  have hv := value_lt w
  rw [h] at hv
  have hv : Spec.value w < 2 ^ 32 := by simpa using hv
  have hn : (BitVec.ofNat 32 (Spec.value w)).toNat = Spec.value w := by rw [BitVec.toNat_ofNat, Nat.mod_eq_of_lt hv]
  have hm : (BitVec.ofNat 32 (Spec.value w)).msb = decide (2 ^ 31 ≤ Spec.value w) := by rw [BitVec.msb_eq_decide, hn]
  have hs : (Spec.signed4 w).toNat = Spec.value w + if 2 ^ 31 ≤ Spec.value w then 2 ^ 64 - 2 ^ 32 else 0 := by
    rw [Spec.signed4, BitVec.toNat_signExtend, hm, BitVec.toNat_setWidth, hn, Nat.mod_eq_of_lt (by omega)]
    simp only [decide_eq_true_eq]
  have hw : (Spec.word w).toNat = Spec.value w := by rw [Spec.word, BitVec.toNat_ofNat, Nat.mod_eq_of_lt (by omega)]
  constructor
  · intro e
    rw [e, hw] at hs
    by_cases hc : 2 ^ 31 ≤ Spec.value w
    · rw [if_pos hc] at hs; omega
    · omega
  · intro hlt
    apply BitVec.eq_of_toNat_eq
    rw [hs, hw, if_neg (by omega), Nat.add_zero]

theorem rest4_length {s w : List Byte} (h : Spec.rest4 s = some w) : w.length = 4 := by
  unfold Spec.rest4 at h
  simp only at h
  split at h
  · cases h
    rw [List.length_take]
    omega
  · cases h

/-- **C58.** The digest is XXH64 of the bytes exactly if no lane of 4 bytes remains or the remaining one is less than `2 ^ 31`.  Missing to
the full property: the other texts, for which it is refuted by the same theorem. -/
theorem digest_xxh64_partial (seed : Word) (s : List Byte) (h : s.length + 32 ≤ 2 ^ 64) :
    run seed [.write s, .finish] (withSeed seed) = some [Spec.xxh64 seed s] ↔ ∀ w, Spec.rest4 s = some w → Spec.value w < 2 ^ 31 := by
  rw [digest_signed seed s h]
  have : (some [Spec.xxh64With Spec.signed4 seed s] = some [Spec.xxh64 seed s]) ↔
      Spec.xxh64With Spec.signed4 seed s = Spec.xxh64With Spec.word seed s := by
    rw [Option.some.injEq, List.cons.injEq, Spec.xxh64]
    exact ⟨fun h => h.1, fun h => ⟨h, rfl⟩⟩
  rw [this, xxh64With_eq_iff]
  constructor
  · intro e w hw
    exact (signed4_iff w (rest4_length hw)).1 (e w hw)
  · intro e w hw
    exact (signed4_iff w (rest4_length hw)).2 (e w hw)

/-! ## Non-vacuity -/

-- XXH64 of the empty text and of "a", "abc" with seed 0, from the reference implementation
example : Spec.xxh64 0 [] = 0xEF46DB3751D8E999#64 := by decide +kernel
example : Spec.xxh64 0 [0x61] = 0xD24EC4F1A98C6E5B#64 := by decide +kernel
example : Spec.xxh64 0 [0x61, 0x62, 0x63] = 0x44BC2CF5AD770999#64 := by decide +kernel
-- a text of 39 bytes: one stripe, a lane of 4 and three bytes
def sample : List Byte := (List.range 39).map (fun n => BitVec.ofNat 8 (7 * n + 1))
example : (run 5 [.write sample, .finish] (withSeed 5)) =
    run 5 [.write (sample.take 3), .write (sample.drop 3 |>.take 30), .write [], .write (sample.drop 33), .finish] (withSeed 5) := by
  decide +kernel
example : (run 5 [.write sample, .finish] (withSeed 5)) ≠ run 5 [.write (sample.take 38), .finish] (withSeed 5) := by decide +kernel
-- a text for which the digest is not XXH64
example : Spec.rest4 [0, 0, 0, 0x80] = some [0, 0, 0, 0x80] := by decide
example : run 0 [.write [0, 0, 0, 0x80], .finish] (withSeed 0) ≠ some [Spec.xxh64 0 [0, 0, 0, 0x80]] := by decide +kernel
example : run 0 [.write [0, 0, 0, 0x7f], .finish] (withSeed 0) = some [Spec.xxh64 0 [0, 0, 0, 0x7f]] := by decide +kernel

end Verif.XxHash
