/-!
# Model of the streaming hasher `std/xxhash.llrl`

A `U64` used as a number to be mixed is a `BitVec 64`, whose operations wrap as the builtin ones do; a `U64` used as a length is a natural
number, with the wrapping written out.  The buffer of four words is its 32 bytes; on the supported targets words are stored with the least
byte first.  Results are `none` when a copy or a load leaves its block, when an assertion fails or when the fuel is used up.
-/
namespace Verif.XxHash

abbrev Byte := BitVec 8
abbrev Word := BitVec 64

/-- The primes, xxhash.llrl:154-158. -/
def prime1 : Word := 11400714785074694791#64
def prime2 : Word := 14029467366897019727#64
def prime3 : Word := 1609587929392839161#64
def prime4 : Word := 9650029242287828579#64
def prime5 : Word := 2870177450012600261#64

/-- `chunk-size`, xxhash.llrl:153. -/
def chunkSize : Nat := 32

/-- `rotl`, xxhash.llrl:160-161. -/
def rotl (x : Word) (b : Nat) : Word := (x <<< b) ||| (x >>> (64 - b))

/-- `round`, xxhash.llrl:163-164. -/
def round (acc input : Word) : Word := rotl (acc + input * prime2) 31 * prime1

/-- `merge-round`, xxhash.llrl:166-167. -/
def mergeRound (acc val : Word) : Word := (acc ^^^ round 0 val) * prime1 + prime4

/-- `avalanche`, xxhash.llrl:169-175. -/
def avalanche (input : Word) : Word :=
  let input := input ^^^ (input >>> 33)
  let input := input * prime2
  let input := input ^^^ (input >>> 29)
  let input := input * prime3
  input ^^^ (input >>> 32)

/-- Loading a word with the least byte first; `mem[i]` and `ptr/load`, xxhash.llrl:112-115 and 141. -/
def load64 : List Byte → Option Word
  | [b0, b1, b2, b3, b4, b5, b6, b7] => some (b7 ++ b6 ++ b5 ++ b4 ++ b3 ++ b2 ++ b1 ++ b0)
  | _ => none

/-- Loading a word of 32 bits, xxhash.llrl:145. -/
def load32 : List Byte → Option (BitVec 32)
  | [b0, b1, b2, b3] => some (b3 ++ b2 ++ b1 ++ b0)
  | _ => none

/-- `array/skip`, std/internal/array-vector.llrl:79-80, on the bytes of the array. -/
def skip (n : Nat) (s : List Byte) : List Byte := s.drop (min n s.length)

/-- `ptr/copy!` of `n` bytes to an offset of the buffer: both blocks must be long enough. -/
def copy (src : List Byte) (n : Nat) (off : Nat) (mem : List Byte) : Option (List Byte) :=
  if n ≤ src.length ∧ off + n ≤ mem.length then some (mem.take off ++ src.take n ++ mem.drop (off + n)) else none

/-- `State`, xxhash.llrl:72-73. -/
structure State where
  totalLen : Nat
  v1 : Word
  v2 : Word
  v3 : Word
  v4 : Word
  mem : List Byte
  memSize : Nat
deriving DecidableEq

/-- `initial-v`, xxhash.llrl:131-135, in `xx-hasher/with-seed`, xxhash.llrl:48-50: `array/new 0 4` is four zero words. -/
def withSeed (seed : Word) : State :=
  { totalLen := 0, v1 := seed + prime1 + prime2, v2 := seed + prime2, v3 := seed, v4 := seed - prime1,
    mem := List.replicate 32 0, memSize := 0 }

/-- `hasher/reset!`, xxhash.llrl:57-60: the buffer is kept. -/
def reset (seed : Word) (st : State) : State :=
  { totalLen := 0, v1 := seed + prime1 + prime2, v2 := seed + prime2, v3 := seed, v4 := seed - prime1, mem := st.mem, memSize := 0 }

/-- The four rounds on the buffer, xxhash.llrl:112-115 and 121-124. -/
def rounds (st : State) : Option State := do
  let w1 ← load64 (st.mem.take 8)
  let w2 ← load64 ((st.mem.drop 8).take 8)
  let w3 ← load64 ((st.mem.drop 16).take 8)
  let w4 ← load64 ((st.mem.drop 24).take 8)
  some { st with v1 := round st.v1 w1, v2 := round st.v2 w2, v3 := round st.v3 w3, v4 := round st.v4 w4 }

/-- The loop over whole chunks, xxhash.llrl:118-125. -/
def chunks : Nat → List Byte → State → Option (List Byte × State)
  | 0, _, _ => none
  | fuel + 1, input, st =>
    if chunkSize ≤ input.length then do
      let mem ← copy input chunkSize 0 st.mem
      let st ← rounds { st with mem := mem }
      chunks fuel (skip chunkSize input) st
    else some (input, st)

/-- Filling up the buffer, xxhash.llrl:109-117. -/
def fill (input : List Byte) (st : State) : Option (List Byte × State) :=
  if 0 < st.memSize then do
    let fillLen := chunkSize - st.memSize
    let mem ← copy input fillLen st.memSize st.mem
    let st ← rounds { st with mem := mem }
    some (skip fillLen input, { st with memSize := 0 })
  else some (input, st)

/-- `state/update!`, xxhash.llrl:95-129. -/
def update (input : List Byte) (st : State) : Option State := do
  let total := (st.totalLen + input.length) % 2 ^ 64
  if (st.memSize + input.length) % 2 ^ 64 < chunkSize then do
    let mem ← copy input input.length st.memSize st.mem
    some { st with totalLen := total, mem := mem, memSize := (st.memSize + input.length) % 2 ^ 64 }
  else do
    let (input, st) ← fill input st
    let (input, st) ← chunks (input.length + 1) input st
    if 0 < input.length then do
      let mem ← copy input input.length 0 st.mem
      some { st with totalLen := total, mem := mem, memSize := input.length }
    else some { st with totalLen := total }

/-- The loop of `finalize` over 8 bytes, xxhash.llrl:140-143. -/
def final8 : Nat → List Byte → Word → Option (List Byte × Word)
  | 0, _, _ => none
  | fuel + 1, d, input =>
    if 8 ≤ d.length then do
      let w ← load64 (d.take 8)
      final8 fuel (skip 8 d) (rotl (input ^^^ round 0 w) 27 * prime1 + prime4)
    else some (d, input)

/-- The step of `finalize` over 4 bytes, xxhash.llrl:144-147: the word is read as an `I32`, and `conv` from `I32` to `U64` extends the sign
(std/conv.llrl:63). -/
def final4 (d : List Byte) (input : Word) : Option (List Byte × Word) :=
  if 4 ≤ d.length then do
    let w ← load32 (d.take 4)
    some (skip 4 d, rotl (input ^^^ w.signExtend 64 * prime1) 23 * prime2 + prime3)
  else some (d, input)

/-- The body of the loop of `finalize` over the bytes, xxhash.llrl:148-150; `conv` from `U8` to `U64` extends with zeros
(std/conv.llrl:77). -/
def byteStep (input : Word) (b : Byte) : Word := rotl (input ^^^ b.zeroExtend 64 * prime5) 11 * prime1

/-- The loop of `finalize` over the bytes, xxhash.llrl:148-150. -/
def final1 (d : List Byte) (input : Word) : Word := d.foldl byteStep input

/-- `finalize`, xxhash.llrl:137-151. -/
def finalize (input : Word) (d : List Byte) : Option Word := do
  let (d, input) ← final8 (d.length + 1) d input
  let (d, input) ← final4 d input
  some (avalanche (final1 d input))

/-- `state/digest`, xxhash.llrl:80-93: the array on the buffer must lie within it. -/
def digest (st : State) : Option Word :=
  let base :=
    (if chunkSize ≤ st.totalLen then
      let result := rotl st.v1 1 + rotl st.v2 7 + rotl st.v3 12 + rotl st.v4 18
      let result := mergeRound result st.v1
      let result := mergeRound result st.v2
      let result := mergeRound result st.v3
      mergeRound result st.v4
    else st.v3 + prime5) + BitVec.ofNat 64 st.totalLen
  if st.memSize ≤ st.mem.length then finalize base (st.mem.take st.memSize) else none

/-- What a program can do with a hasher, the class `Hasher` (std/hash.llrl:21-24). -/
inductive Op
  | write (bytes : List Byte)
  | finish
  | reset

/-- Running operations on a hasher, xxhash.llrl:56-66: the digests that are given out. -/
def run (seed : Word) : List Op → State → Option (List Word)
  | [], _ => some []
  | .write bytes :: ops, st => do
    let st ← update bytes st
    run seed ops st
  | .finish :: ops, st => do
    let d ← digest st
    let ds ← run seed ops st
    some (d :: ds)
  | .reset :: ops, st => run seed ops (reset seed st)

end Verif.XxHash
