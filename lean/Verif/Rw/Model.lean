import Verif.Rw.Spec
import Verif.Utf8.Model

/-!
# Model of readers and writers

`std/rw.llrl`, `std/io/file.llrl`, `std/string-reader.llrl`.

Arrays and vectors are the lists of their elements (C45 to C48 are about their memory). An array and
a reader are never the same memory here. `none` is a failed assertion, or fuel used up.
-/

namespace Verif.Rw

variable {R E : Type}

/-! ## Vectors -/

/-- `vector/consume!`. std/internal/array-vector.llrl 359-364. -/
def consume (n : Nat) (v : List UInt8) : Option (List UInt8 × List UInt8) :=
  if n = 0 then some ([], v)
  else if n ≤ v.length then some (v.take n, v.drop n)
  else none

/-- `array/copy!`: the destination afterwards. std/internal/array-vector.llrl 168-170. -/
def copy (src dest : List UInt8) : Option (List UInt8) :=
  if src.length ≤ dest.length then some (src ++ dest.drop src.length) else none

/-- `Read.Vector`. std/rw.llrl 27-31. -/
def readVector : Read (List UInt8) E where
  readIntoBuf bytes r :=
    match consume (min bytes.length r.length) r with
    | none => none
    | some (bytesRead, r) =>
      match copy bytesRead bytes with
      | none => none
      | some bytes => some (.ok bytesRead.length, bytes, r)

/-- `write-bytes!` of `Write.Vector`. std/rw.llrl 38-40. -/
def writeVector (bytes w : List UInt8) : List UInt8 := w ++ bytes

/-! ## Reading -/

/-- The loop of `read-bytes-to-end-into!`. `tmp` is what is in the temporary array, at first
anything. std/rw.llrl 58-63. -/
def toEndLoop (rd : Read R E) : Nat → List UInt8 → BitVec 64 → List UInt8 → R →
    Option (Except E (BitVec 64) × List UInt8 × R)
  | 0, _, _, _, _ => none
  | fuel + 1, tmp, total, buf, r =>
    match rd.readIntoBuf tmp r with
    | none => none
    | some (.error e, _, r) => some (.error e, buf, r)
    | some (.ok len, tmp, r) =>
      let total := total + BitVec.ofNat 64 len
      let buf := buf ++ tmp.take (min len tmp.length)
      if len ≠ 0 then toEndLoop rd fuel tmp total buf r else some (.ok total, buf, r)

/-- `read-bytes-to-end-into!`. std/rw.llrl 54-63. -/
def toEndInto (rd : Read R E) (fuel : Nat) (tmp buf : List UInt8) (r : R) :
    Option (Except E (BitVec 64) × List UInt8 × R) :=
  toEndLoop rd fuel tmp 0 buf r

/-- `read-bytes-to-end!`. std/rw.llrl 49-52. -/
def toEnd (rd : Read R E) (fuel : Nat) (tmp : List UInt8) (r : R) :
    Option (Except E (List UInt8) × R) :=
  match toEndInto rd fuel tmp [] r with
  | none => none
  | some (.error e, _, r) => some (.error e, r)
  | some (.ok _, buf, r) => some (.ok buf, r)

/-- `read-bytes!`. std/rw.llrl 65-68. -/
def readBytes (rd : Read R E) (unexpectedEof : E) (bytes : List UInt8) (r : R) :
    Option (Except E Unit × List UInt8 × R) :=
  match rd.readIntoBuf bytes r with
  | none => none
  | some (.error e, bytes, r) => some (.error e, bytes, r)
  | some (.ok n, bytes, r) =>
    if n = bytes.length then some (.ok (), bytes, r) else some (.error unexpectedEof, bytes, r)

/-- `read-string-to-end!`; a string is its bytes. std/string-reader.llrl 10-15. -/
def stringToEnd (rd : Read R E) (invalidData : E) (fuel : Nat) (tmp : List UInt8) (r : R) :
    Option (Except E (List UInt8) × R) :=
  match toEnd rd fuel tmp r with
  | none => none
  | some (.error e, r) => some (.error e, r)
  | some (.ok buf, r) =>
    if Verif.Utf8.validSequence (buf.map UInt8.toNat) then some (.ok buf, r)
    else some (.error invalidData, r)

/-! ## Integers -/

/-- `array/unsafe-temporary-bytearray` of an integer of `size` bytes, as it is in the memory of the
target. std/internal/array-vector.llrl 193-198. -/
def bytearray : (size : Nat) → (value : Nat) → List UInt8
  | 0, _ => []
  | size + 1, value => UInt8.ofNat (value % 256) :: bytearray size (value / 256)

/-- `ptr/load` of an integer from its bytes. std/rw.llrl 87. -/
def load : List UInt8 → Nat
  | [] => 0
  | b :: bs => b.toNat + 256 * load bs

/-- `read-u8!` and so on. The bits of a signed integer are those of an unsigned one.
std/rw.llrl 83-87. -/
def readInt (rd : Read R E) (unexpectedEof : E) (size : Nat) (r : R) : Option (Except E Nat × R) :=
  match readBytes rd unexpectedEof (bytearray size 0) r with
  | none => none
  | some (.error e, _, r) => some (.error e, r)
  | some (.ok (), tmp, r) => some (.ok (load tmp), r)

/-- `write-u8!` and so on, to a vector. std/rw.llrl 89-91. -/
def writeInt (size value : Nat) (w : List UInt8) : List UInt8 := writeVector (bytearray size value) w

/-! ## Files -/

/-- `IoError`, as far as it is needed; `system` stands for what `io-error/from-errno` makes of the
number of an error. std/io/error.llrl 9-26. -/
inductive IoError where
  | closed
  | unexpectedEof
  | invalidData
  | system (errno : Nat)
  deriving DecidableEq, Repr

/-- A stream of C: the bytes left, what happens after them (an error or the end), whether the end was
seen, what was written and how many bytes may be written before an error. -/
structure Stream where
  rest : List UInt8
  fault : Option Nat
  eof : Bool
  written : List UInt8
  room : Nat
  full : Nat
  deriving DecidableEq, Repr

/-- `fread`, and `feof` after it: reads until the array is full, the end is reached or an error
occurs. Called at std/io/file.llrl 33. -/
def fread (len : Nat) (s : Stream) : List UInt8 × Stream :=
  (s.rest.take len,
    { s with rest := s.rest.drop len, eof := s.eof || (s.rest.length < len && s.fault.isNone) })

/-- `fwrite`: the number of bytes written. Called at std/io/file.llrl 43. -/
def fwrite (src : List UInt8) (s : Stream) : Nat × Stream :=
  (min src.length s.room,
    { s with written := s.written ++ src.take s.room, room := s.room - src.length })

/-- `File`, a handle or null, and how often `fclose` was called. std/io/file.llrl 13-14. -/
structure File where
  handle : Option Stream
  closes : Nat

/-- `file/read!`. std/io/file.llrl 29-37. -/
def fileRead (dest : List UInt8) (f : File) : Except IoError Nat × List UInt8 × File :=
  match f.handle with
  | none => (.error .closed, dest, f)
  | some s =>
    let (bytes, s) := fread dest.length s
    let dest' := bytes ++ dest.drop bytes.length
    if bytes.length = dest.length ∨ s.eof = true then
      (.ok bytes.length, dest', { f with handle := some s })
    else (.error (.system (s.fault.getD 0)), dest', { f with handle := some s })

/-- `Read.File`. std/io/file.llrl 96-97. -/
def readFile : Read File IoError where
  readIntoBuf buf f := some (fileRead buf f)

/-- `file/write!`. std/io/file.llrl 39-46. -/
def fileWrite (src : List UInt8) (f : File) : Except IoError Unit × File :=
  match f.handle with
  | none => (.error .closed, f)
  | some s =>
    let (n, s) := fwrite src s
    if n = src.length then (.ok (), { f with handle := some s })
    else (.error (.system s.full), { f with handle := some s })

/-- `file/close!`; `result` is what `fclose` gives, an error or none. std/io/file.llrl 56-64. -/
def fileClose (result : Option Nat) (f : File) : Except IoError Unit × File :=
  match f.handle with
  | none => (.ok (), f)
  | some _ =>
    match result with
    | none => (.ok (), { handle := none, closes := f.closes + 1 })
    | some e => (.error (.system e), { handle := none, closes := f.closes + 1 })

/-- Programs that work with a file and may do as the results tell. They stand for the function given
to `with-file!`. -/
inductive Prog (A : Type) where
  | done (a : Except IoError A)
  | read (dest : List UInt8) (k : Except IoError Nat × List UInt8 → Prog A)
  | write (src : List UInt8) (k : Except IoError Unit → Prog A)
  | close (result : Option Nat) (k : Except IoError Unit → Prog A)

/-- To run such a program. std/io/file.llrl 29-64. -/
def Prog.run {A : Type} : Prog A → File → Except IoError A × File
  | .done a, f => (a, f)
  | .read dest k, f =>
    match fileRead dest f with
    | (n, dest, f) => (k (n, dest)).run f
  | .write src k, f =>
    match fileWrite src f with
    | (x, f) => (k x).run f
  | .close result k, f =>
    match fileClose result f with
    | (x, f) => (k x).run f

/-- `with-file!`; `opened` is what `fopen` gives, `result` what `fclose` gives; the file afterwards.
std/io/file.llrl 81-85 and 16-20. -/
def withFile {A : Type} (opened : Except Nat Stream) (result : Option Nat) (p : Prog A) :
    Except IoError A × Option File :=
  match opened with
  | .error e => (.error (.system e), none)
  | .ok s =>
    match p.run { handle := some s, closes := 0 } with
    | (ret, f) => (ret, some (fileClose result f).2)

end Verif.Rw
