/-!
# What XXH64 is

The hash function of the XXH64 specification (https://github.com/Cyan4973/xxHash/blob/dev/doc/xxhash_spec.md), as a function of the
seed and the bytes, on whole lists.  Nothing here is shared with the model.
-/
namespace Verif.XxHash.Spec

abbrev Byte := BitVec 8
abbrev Word := BitVec 64

def p1 : Word := 0x9E3779B185EBCA87#64
def p2 : Word := 0xC2B2AE3D27D4EB4F#64
def p3 : Word := 0x165667B19E3779F9#64
def p4 : Word := 0x85EBCA77C2B2AE63#64
def p5 : Word := 0x27D4EB2F165667C5#64

/-- The number written by bytes, the least first. -/
def value : List Byte → Nat
  | [] => 0
  | b :: bs => b.toNat + 256 * value bs

/-- The bytes as an unsigned word. -/
def word (bs : List Byte) : Word := BitVec.ofNat 64 (value bs)

def mix (acc lane : Word) : Word := (acc + lane * p2).rotateLeft 31 * p1

def mergeAcc (acc val : Word) : Word := (acc ^^^ mix 0 val) * p1 + p4

/-- The four accumulators. -/
structure Acc where
  a : Word
  b : Word
  c : Word
  d : Word
deriving DecidableEq

def start (seed : Word) : Acc := ⟨seed + p1 + p2, seed + p2, seed, seed - p1⟩

/-- One stripe of 32 bytes. -/
def stripe (v : Acc) (s : List Byte) : Acc :=
  ⟨mix v.a (word (s.take 8)), mix v.b (word ((s.drop 8).take 8)), mix v.c (word ((s.drop 16).take 8)), mix v.d (word ((s.drop 24).take 8))⟩

/-- The first `n` stripes. -/
def stripes (v : Acc) : Nat → List Byte → Acc
  | 0, _ => v
  | n + 1, s => stripes (stripe v (s.take 32)) n (s.drop 32)

def converge (v : Acc) : Word :=
  mergeAcc (mergeAcc (mergeAcc (mergeAcc (v.a.rotateLeft 1 + v.b.rotateLeft 7 + v.c.rotateLeft 12 + v.d.rotateLeft 18) v.a) v.b) v.c) v.d

/-- A remaining lane of 8 bytes. -/
def lane8 (s : List Byte) (acc : Word) : Word := (acc ^^^ mix 0 (word s)).rotateLeft 27 * p1 + p4

/-- The first `n` lanes of 8 bytes of a text. -/
def cut8 : Nat → List Byte → List (List Byte)
  | 0, _ => []
  | n + 1, s => s.take 8 :: cut8 n (s.drop 8)

/-- The remaining whole lanes of 8 bytes, `n` of them. -/
def lanes8 (n : Nat) (s : List Byte) (acc : Word) : Word := (cut8 n s).foldl (fun acc l => lane8 l acc) acc

/-- How a lane of 4 bytes is read. -/
abbrev Lane4 := List Byte → Word

/-- The remaining lane of 4 bytes. -/
def lane4 (read : Lane4) (s : List Byte) (acc : Word) : Word := (acc ^^^ read s * p1).rotateLeft 23 * p2 + p3

/-- The remaining bytes. -/
def lane1 (b : Byte) (acc : Word) : Word := (acc ^^^ b.zeroExtend 64 * p5).rotateLeft 11 * p1

def lanes1 (s : List Byte) (acc : Word) : Word := s.foldl (fun acc b => lane1 b acc) acc

/-- The remaining input, less than a stripe. -/
def consume (read : Lane4) (s : List Byte) (acc : Word) : Word :=
  let acc := lanes8 (s.length / 8) s acc
  let t := s.drop (8 * (s.length / 8))
  if 4 ≤ t.length then lanes1 (t.drop 4) (lane4 read (t.take 4) acc) else lanes1 t acc

def avalanche (acc : Word) : Word :=
  let acc := acc ^^^ (acc >>> 33)
  let acc := acc * p2
  let acc := acc ^^^ (acc >>> 29)
  let acc := acc * p3
  acc ^^^ (acc >>> 32)

/-- The accumulator of a text before the remaining input is consumed. -/
def gather (seed : Word) (s : List Byte) : Word :=
  (if s.length < 32 then seed + p5 else converge (stripes (start seed) (s.length / 32) s)) + BitVec.ofNat 64 s.length

/-- XXH64 with a given way to read a lane of 4 bytes. -/
def xxh64With (read : Lane4) (seed : Word) (s : List Byte) : Word :=
  avalanche (consume read (s.drop (32 * (s.length / 32))) (gather seed s))

/-- XXH64: all lanes are unsigned.  (The length of a text is less than 2^64.) -/
def xxh64 : Word → List Byte → Word := xxh64With word

/-- The bytes as a signed number of 32 bits. -/
def signed4 (bs : List Byte) : Word := (BitVec.ofNat 32 (value bs)).signExtend 64

/-- The lane of 4 bytes that remains of a text, if there is one. -/
def rest4 (s : List Byte) : Option (List Byte) :=
  let t := s.drop (32 * (s.length / 32))
  let t := t.drop (8 * (t.length / 8))
  if 4 ≤ t.length then some (t.take 4) else none

end Verif.XxHash.Spec
