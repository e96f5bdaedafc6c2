import Verif.Hash.Lemmas
import Verif.XxHash.Props

/-!
# C60: equal keys hash alike

Proved for all values of all types built from the instances of the library and derived ones, as long as no float in them is the negative zero
or not-a-number (in particular for all types without floats).  For floats it fails in two ways: the zeros are equal and hash differently, and in
code made by the Chibi backend not-a-number equals every float.
-/
namespace Verif.Hash

/-- **C60.** Two values of a type can be compared and hashed, and when they are equal, the calls of `hasher/write!` are the same: any hasher gets
the same digest from both.  For values without negative zeros and without not-a-number, on both backends. -/
theorem equal_hash_alike_partial (D : Decls) (chibi : Bool) (t : Ty) (v w : V) (hv : Typed D t v) (hw : Typed D t w) (rv : Regular D t v)
    (rw' : Regular D t w) :
    ∃ b x y, eq D chibi t v w = some b ∧ hash D t v = some x ∧ hash D t w = some y ∧ (b = true → x = y) := by
  obtain ⟨b, e⟩ := eq_total (chibi := chibi) hv hw
  obtain ⟨x, ex⟩ := hash_total hv
  obtain ⟨y, ey⟩ := hash_total hw
  refine ⟨b, x, y, e, ex, ey, ?_⟩
  rintro rfl
  have := hash_congr rv rw' e
  rw [ex, ey] at this
  exact Option.some.inj this

/-- **C60.** For types without floats nothing else is asked for. -/
theorem equal_hash_alike_no_float (D : Decls) (hD : D.NoFloat) (chibi : Bool) (t : Ty) (ht : t.NoFloat) (v w : V) (hv : Typed D t v)
    (hw : Typed D t w) :
    ∃ b x y, eq D chibi t v w = some b ∧ hash D t v = some x ∧ hash D t w = some y ∧ (b = true → x = y) :=
  equal_hash_alike_partial D chibi t v w hv hw (regular_of hD ht v) (regular_of hD ht w)

/-- **C60.** So the hashes that the hash maps use are equal. -/
theorem equal_digest_alike (D : Decls) (hD : D.NoFloat) (chibi : Bool) (t : Ty) (ht : t.NoFloat) (v w : V)
    (h : eq D chibi t v w = some true) (seed : XxHash.Word) (st : XxHash.State) : hashWith seed st D t v = hashWith seed st D t w := by
  rw [hashWith, hashWith, hash_congr (regular_of hD ht v) (regular_of hD ht w) h]

/-! ## The write of a whole array of bytes -/

/-- Writing the elements one after the other. -/
def separately : Vs → Option (List (List Nat))
  | .nil => some []
  | .cons (.num n) vs => do
    let r ← separately vs
    some (bytes 1 n :: r)
  | _ => none

theorem u8s_flatten : ∀ {vs : Vs} {r : List Nat}, u8s vs = some r → ∃ ws, separately vs = some ws ∧ ws.flatten = r ∧ (∀ c ∈ ws, c.length = 1)
  | .nil, r, h => by cases h; exact ⟨[], rfl, rfl, by simp⟩
  | .cons (.num n) vs, r, h => by
    rw [u8s, Option.bind_eq_bind, Option.bind_eq_some_iff] at h
    obtain ⟨r', e, h⟩ := h
    cases h
    obtain ⟨ws, e', ef, hl⟩ := u8s_flatten e
    exact ⟨_, by rw [separately, e']; rfl, by rw [List.flatten_cons, ef]; rfl, by
      intro c hc
      rcases List.mem_cons.1 hc with rfl | hc
      · rfl
      · exact hl c hc⟩
  | .cons (.str _) _, _, h => by simp [u8s] at h
  | .cons (.con _ _) _, _, h => by simp [u8s] at h
  | .cons (.list _) _, _, h => by simp [u8s] at h

/-- The instance for bytes that hands over the array in one write (hash.llrl:60-61) gives the digest of writing the elements one by one: the
optimisation cannot be seen. -/
theorem array_of_bytes_digest (D : Decls) (vs : Vs) (h : TypedAll D (.int 1) vs) (hl : vs.length + 32 ≤ 2 ^ 64) (seed : XxHash.Word) :
    ∃ ws d, separately vs = some ws ∧
      XxHash.run seed (.reset :: ws.map (fun b => .write (b.map (BitVec.ofNat 8))) ++ [.finish]) (XxHash.withSeed seed) = some [d] ∧
      hashWith seed (XxHash.withSeed seed) D (.arr (.int 1)) (.list vs) = some [d] := by
  obtain ⟨r, e⟩ := u8s_total h
  obtain ⟨ws, ew, ef, h1⟩ := u8s_flatten e
  have hlen : ∀ {vs : Vs} {r : List Nat}, u8s vs = some r → r.length = vs.length := by
    intro vs
    induction vs using Vs.rec (motive_1 := fun _ => True) with
    | nil => intro r h; cases h; rfl
    | cons v vs _ ih =>
      intro r h
      cases v with
      | num n =>
        rw [u8s, Option.bind_eq_bind, Option.bind_eq_some_iff] at h
        obtain ⟨r', e, h⟩ := h
        cases h
        rw [List.length_cons, ih e]; rfl
      | _ => simp [u8s] at h
    | _ => trivial
  obtain ⟨d, ed, ed'⟩ := XxHash.partition_independent seed (ws.map (List.map (BitVec.ofNat 8))) [r.map (BitVec.ofNat 8)]
    (by
      intro c hc
      obtain ⟨b, hb, rfl⟩ := List.mem_map.1 hc
      rw [List.length_map, h1 b hb]; decide)
    (by
      intro c hc
      rw [List.mem_singleton.1 hc, List.length_map, hlen e]; exact hl)
    (by rw [← ef]; simp [List.map_flatten])
  have hr : XxHash.reset seed (XxHash.withSeed seed) = XxHash.withSeed seed := rfl
  refine ⟨ws, d, ew, ?_, ?_⟩
  · rw [List.cons_append, XxHash.run, hr]
    simpa [List.map_map, Function.comp_def] using ed
  · rw [hashWith, hash]
    simp only [isU8, if_true, e]
    rw [Option.bind_eq_bind, Option.bind_eq_bind, Option.bind_some, Option.bind_some, List.cons_append, XxHash.run, hr]
    exact ed'

/-! ## A concrete case -/

/-- A tree of strings: `(leaf) (node Tree String Tree)`, and a pair of floats. -/
def trees : Decls
  | 0 => [[], [.data 0, .string, .data 0]]
  | _ => []

def leaf : V := .con 0 .nil
def node (l : V) (s : List Nat) (r : V) : V := .con 1 (.cons l (.cons (.str s) (.cons r .nil)))

/-- The tree is written as indices and strings in order. -/
example : hash trees (.data 0) (node leaf [97, 98] (node leaf [] leaf)) =
    some [[1, 0], [0, 0], [97, 98], [1, 0], [0, 0], [], [0, 0]] := by decide +kernel

/-- Equal and unequal ones. -/
example : eq trees true (.data 0) (node leaf [97] leaf) (node leaf [97] leaf) = some true ∧
    eq trees true (.data 0) (node leaf [97] leaf) (node leaf [98] leaf) = some false ∧
    eq trees true (.data 0) (node leaf [97] leaf) leaf = some false := by decide +kernel

example : trees.NoFloat := by
  intro d ts h
  match d with
  | 0 =>
    simp only [trees, List.mem_cons, List.not_mem_nil, or_false] at h
    rcases h with rfl | rfl <;> simp [NoFloats, Ty.NoFloat]
  | d + 1 => simp [trees] at h

/-- Bytes and other integers, an optional pair. -/
example : hash trees (.arr (.int 1)) (.list (.cons (.num 7) (.cons (.num 8) .nil))) = some [[7, 8]] ∧
    hash trees (.arr (.int 2)) (.list (.cons (.num 7) (.cons (.num 300) .nil))) = some [[7, 0], [44, 1]] ∧
    hash trees (.option (.tuple [.bool, .char])) (.con 1 (.cons (.con 0 (.cons (.num 1) (.cons (.num 955) .nil))) .nil)) =
      some [[1], [1], [187, 3, 0, 0]] := by decide +kernel

/-! ## Where it fails -/

/-- `0.0`, `-0.0`, `1.0` and a not-a-number, as doubles. -/
def zero : V := .num 0
def negativeZero : V := .num 0x8000000000000000
def one : V := .num 0x3ff0000000000000
def nan : V := .num 0x7ff8000000000000

/-- The zeros are equal, on both backends, and are hashed differently: a hash map with float keys (or keys containing floats) does not find the key
`-0.0` under `0.0`. -/
theorem zeros_hash_apart : ∀ chibi, eq trees chibi (.float true) zero negativeZero = some true ∧
    hash trees (.float true) zero ≠ hash trees (.float true) negativeZero := by decide +kernel

/-- The digests differ too. -/
theorem zeros_digests_apart : hashWith 0 (XxHash.withSeed 0) trees (.float true) zero ≠
    hashWith 0 (XxHash.withSeed 0) trees (.float true) negativeZero := by decide +kernel

/-- With Chibi not-a-number equals everything, so equality of floats is not transitive and no hash can agree with it; with LLVM it equals nothing. -/
theorem chibi_nan : eq trees true (.float true) nan zero = some true ∧ eq trees true (.float true) nan one = some true ∧
    eq trees true (.float true) zero one = some false ∧ hash trees (.float true) nan ≠ hash trees (.float true) one ∧
    eq trees false (.float true) nan zero = some false ∧ eq trees false (.float true) nan nan = some false := by decide +kernel

/-- **C60** as stated, for all types and values, is false. -/
theorem equal_hash_alike_fails : ¬ ∀ (D : Decls) (chibi : Bool) (t : Ty) (v w : V), Typed D t v → Typed D t w → eq D chibi t v w = some true →
    hash D t v = hash D t w := by
  intro h
  exact (zeros_hash_apart false).2 (h trees false (.float true) zero negativeZero (by simp [Typed, zero]) (by simp [Typed, negativeZero])
    (zeros_hash_apart false).1)

end Verif.Hash
