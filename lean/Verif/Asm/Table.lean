import Verif.Asm.Spec

/-!
# The instruction forms of inst.rs

One entry per `impl WriteInst<W> for …` of `/repo/xten0/src/asm/inst.rs` (1366 of them), extracted
from the bodies of `write_inst`: mandatory prefix bytes, the flag given to `rex_byte`, opcode bytes,
what goes into `ModRM::new`, and the size of the immediate written last.  The entries are sorted by
`numKey` (prefix, flag, opcode, digit).  The second field is the line of the `impl` in inst.rs.
-/

namespace Verif.Asm

open Spec (RegClass)

/-- First argument of `ModRM::new`. -/
inductive RegField
  | cls (c : RegClass)
  | digit (d : Nat)
  deriving DecidableEq, Repr

/-- Second argument of `ModRM::new`. -/
inductive RmField
  | cls (c : RegClass)
  | mem
  deriving DecidableEq, Repr

/-- An instruction form with a ModR/M byte. -/
structure Form where
  name : String
  line : Nat
  legacy : List Nat
  w : Bool
  opcode : List Nat
  reg : RegField
  rm : RmField
  imm : Nat
  deriving DecidableEq, Repr

/-- An instruction form with the register in the opcode. -/
structure OpForm where
  name : String
  line : Nat
  legacy : List Nat
  w : Bool
  opcode : List Nat
  reg : RegClass
  imm : Nat
  deriving DecidableEq, Repr

/-- An instruction form without register or memory operand. -/
structure FixedForm where
  name : String
  line : Nat
  legacy : List Nat
  w : Bool
  opcode : List Nat
  imm : Nat
  deriving DecidableEq, Repr

/-- Part of `forms`. -/
def forms0 : List Form := [
  ⟨"addb", 3893, [], false, [0x00], .cls .c8, .mem, 0⟩,
  ⟨"addl", 3977, [], false, [0x01], .cls .c32, .mem, 0⟩,
  ⟨"addb", 3865, [], false, [0x02], .cls .c8, .cls .c8, 0⟩,
  ⟨"addb", 3879, [], false, [0x02], .cls .c8, .mem, 0⟩,
  ⟨"addl", 3949, [], false, [0x03], .cls .c32, .cls .c32, 0⟩,
  ⟨"addl", 3963, [], false, [0x03], .cls .c32, .mem, 0⟩,
  ⟨"orb", 12689, [], false, [0x08], .cls .c8, .mem, 0⟩,
  ⟨"orl", 12773, [], false, [0x09], .cls .c32, .mem, 0⟩,
  ⟨"orb", 12661, [], false, [0x0A], .cls .c8, .cls .c8, 0⟩,
  ⟨"orb", 12675, [], false, [0x0A], .cls .c8, .mem, 0⟩,
  ⟨"orl", 12745, [], false, [0x0B], .cls .c32, .cls .c32, 0⟩,
  ⟨"orl", 12759, [], false, [0x0B], .cls .c32, .mem, 0⟩,
  ⟨"adcb", 3458, [], false, [0x10], .cls .c8, .mem, 0⟩,
  ⟨"adcl", 3542, [], false, [0x11], .cls .c32, .mem, 0⟩,
  ⟨"adcb", 3430, [], false, [0x12], .cls .c8, .cls .c8, 0⟩,
  ⟨"adcb", 3444, [], false, [0x12], .cls .c8, .mem, 0⟩,
  ⟨"adcl", 3514, [], false, [0x13], .cls .c32, .cls .c32, 0⟩,
  ⟨"adcl", 3528, [], false, [0x13], .cls .c32, .mem, 0⟩,
  ⟨"sbbb", 19712, [], false, [0x18], .cls .c8, .mem, 0⟩,
  ⟨"sbbl", 19796, [], false, [0x19], .cls .c32, .mem, 0⟩,
  ⟨"sbbb", 19684, [], false, [0x1A], .cls .c8, .cls .c8, 0⟩,
  ⟨"sbbb", 19698, [], false, [0x1A], .cls .c8, .mem, 0⟩,
  ⟨"sbbl", 19768, [], false, [0x1B], .cls .c32, .cls .c32, 0⟩,
  ⟨"sbbl", 19782, [], false, [0x1B], .cls .c32, .mem, 0⟩,
  ⟨"andb", 4462, [], false, [0x20], .cls .c8, .mem, 0⟩,
  ⟨"andl", 4546, [], false, [0x21], .cls .c32, .mem, 0⟩,
  ⟨"andb", 4434, [], false, [0x22], .cls .c8, .cls .c8, 0⟩,
  ⟨"andb", 4448, [], false, [0x22], .cls .c8, .mem, 0⟩,
  ⟨"andl", 4518, [], false, [0x23], .cls .c32, .cls .c32, 0⟩,
  ⟨"andl", 4532, [], false, [0x23], .cls .c32, .mem, 0⟩,
  ⟨"subb", 22550, [], false, [0x28], .cls .c8, .mem, 0⟩,
  ⟨"subl", 22634, [], false, [0x29], .cls .c32, .mem, 0⟩,
  ⟨"subb", 22522, [], false, [0x2A], .cls .c8, .cls .c8, 0⟩,
  ⟨"subb", 22536, [], false, [0x2A], .cls .c8, .mem, 0⟩,
  ⟨"subl", 22606, [], false, [0x2B], .cls .c32, .cls .c32, 0⟩,
  ⟨"subl", 22620, [], false, [0x2B], .cls .c32, .mem, 0⟩,
  ⟨"xorb", 24093, [], false, [0x30], .cls .c8, .mem, 0⟩,
  ⟨"xorl", 24177, [], false, [0x31], .cls .c32, .mem, 0⟩,
  ⟨"xorb", 24065, [], false, [0x32], .cls .c8, .cls .c8, 0⟩,
  ⟨"xorb", 24079, [], false, [0x32], .cls .c8, .mem, 0⟩,
  ⟨"xorl", 24149, [], false, [0x33], .cls .c32, .cls .c32, 0⟩,
  ⟨"xorl", 24163, [], false, [0x33], .cls .c32, .mem, 0⟩,
  ⟨"cmpb", 6314, [], false, [0x38], .cls .c8, .mem, 0⟩,
  ⟨"cmpl", 6398, [], false, [0x39], .cls .c32, .mem, 0⟩,
  ⟨"cmpb", 6286, [], false, [0x3A], .cls .c8, .cls .c8, 0⟩,
  ⟨"cmpb", 6300, [], false, [0x3A], .cls .c8, .mem, 0⟩,
  ⟨"cmpl", 6370, [], false, [0x3B], .cls .c32, .cls .c32, 0⟩,
  ⟨"cmpl", 6384, [], false, [0x3B], .cls .c32, .mem, 0⟩,
  ⟨"imull", 8730, [], false, [0x69], .cls .c32, .cls .c32, 4⟩,
  ⟨"imull", 8745, [], false, [0x69], .cls .c32, .mem, 4⟩,
  ⟨"imull", 8700, [], false, [0x6B], .cls .c32, .cls .c32, 1⟩,
  ⟨"imull", 8715, [], false, [0x6B], .cls .c32, .mem, 1⟩,
  ⟨"addb", 3907, [], false, [0x80], .digit 0, .cls .c8, 1⟩,
  ⟨"addb", 3922, [], false, [0x80], .digit 0, .mem, 1⟩,
  ⟨"orb", 12703, [], false, [0x80], .digit 1, .cls .c8, 1⟩,
  ⟨"orb", 12718, [], false, [0x80], .digit 1, .mem, 1⟩,
  ⟨"adcb", 3472, [], false, [0x80], .digit 2, .cls .c8, 1⟩,
  ⟨"adcb", 3487, [], false, [0x80], .digit 2, .mem, 1⟩,
  ⟨"sbbb", 19726, [], false, [0x80], .digit 3, .cls .c8, 1⟩,
  ⟨"sbbb", 19741, [], false, [0x80], .digit 3, .mem, 1⟩,
  ⟨"andb", 4476, [], false, [0x80], .digit 4, .cls .c8, 1⟩,
  ⟨"andb", 4491, [], false, [0x80], .digit 4, .mem, 1⟩,
  ⟨"subb", 22564, [], false, [0x80], .digit 5, .cls .c8, 1⟩,
  ⟨"subb", 22579, [], false, [0x80], .digit 5, .mem, 1⟩,
  ⟨"xorb", 24107, [], false, [0x80], .digit 6, .cls .c8, 1⟩,
  ⟨"xorb", 24122, [], false, [0x80], .digit 6, .mem, 1⟩,
  ⟨"cmpb", 6328, [], false, [0x80], .digit 7, .cls .c8, 1⟩,
  ⟨"cmpb", 6343, [], false, [0x80], .digit 7, .mem, 1⟩,
  ⟨"addl", 4021, [], false, [0x81], .digit 0, .cls .c32, 4⟩,
  ⟨"addl", 4036, [], false, [0x81], .digit 0, .mem, 4⟩,
  ⟨"orl", 12817, [], false, [0x81], .digit 1, .cls .c32, 4⟩,
  ⟨"orl", 12832, [], false, [0x81], .digit 1, .mem, 4⟩,
  ⟨"adcl", 3586, [], false, [0x81], .digit 2, .cls .c32, 4⟩,
  ⟨"adcl", 3601, [], false, [0x81], .digit 2, .mem, 4⟩,
  ⟨"sbbl", 19840, [], false, [0x81], .digit 3, .cls .c32, 4⟩,
  ⟨"sbbl", 19855, [], false, [0x81], .digit 3, .mem, 4⟩,
  ⟨"andl", 4590, [], false, [0x81], .digit 4, .cls .c32, 4⟩,
  ⟨"andl", 4605, [], false, [0x81], .digit 4, .mem, 4⟩,
  ⟨"subl", 22678, [], false, [0x81], .digit 5, .cls .c32, 4⟩,
  ⟨"subl", 22693, [], false, [0x81], .digit 5, .mem, 4⟩,
  ⟨"xorl", 24221, [], false, [0x81], .digit 6, .cls .c32, 4⟩,
  ⟨"xorl", 24236, [], false, [0x81], .digit 6, .mem, 4⟩,
  ⟨"cmpl", 6442, [], false, [0x81], .digit 7, .cls .c32, 4⟩,
  ⟨"cmpl", 6457, [], false, [0x81], .digit 7, .mem, 4⟩,
  ⟨"addl", 3991, [], false, [0x83], .digit 0, .cls .c32, 1⟩,
  ⟨"addl", 4006, [], false, [0x83], .digit 0, .mem, 1⟩,
  ⟨"orl", 12787, [], false, [0x83], .digit 1, .cls .c32, 1⟩,
  ⟨"orl", 12802, [], false, [0x83], .digit 1, .mem, 1⟩,
  ⟨"adcl", 3556, [], false, [0x83], .digit 2, .cls .c32, 1⟩,
  ⟨"adcl", 3571, [], false, [0x83], .digit 2, .mem, 1⟩,
  ⟨"sbbl", 19810, [], false, [0x83], .digit 3, .cls .c32, 1⟩,
  ⟨"sbbl", 19825, [], false, [0x83], .digit 3, .mem, 1⟩,
  ⟨"andl", 4560, [], false, [0x83], .digit 4, .cls .c32, 1⟩,
  ⟨"andl", 4575, [], false, [0x83], .digit 4, .mem, 1⟩,
  ⟨"subl", 22648, [], false, [0x83], .digit 5, .cls .c32, 1⟩,
  ⟨"subl", 22663, [], false, [0x83], .digit 5, .mem, 1⟩,
  ⟨"xorl", 24191, [], false, [0x83], .digit 6, .cls .c32, 1⟩,
  ⟨"xorl", 24206, [], false, [0x83], .digit 6, .mem, 1⟩,
  ⟨"cmpl", 6412, [], false, [0x83], .digit 7, .cls .c32, 1⟩,
  ⟨"cmpl", 6427, [], false, [0x83], .digit 7, .mem, 1⟩,
  ⟨"testb", 23104, [], false, [0x84], .cls .c8, .cls .c8, 0⟩,
  ⟨"testb", 23118, [], false, [0x84], .cls .c8, .mem, 0⟩,
  ⟨"testl", 23174, [], false, [0x85], .cls .c32, .cls .c32, 0⟩,
  ⟨"testl", 23188, [], false, [0x85], .cls .c32, .mem, 0⟩,
  ⟨"xchgb", 23818, [], false, [0x86], .cls .c8, .cls .c8, 0⟩,
  ⟨"xchgb", 23832, [], false, [0x86], .cls .c8, .mem, 0⟩,
  ⟨"xchgb", 23846, [], false, [0x86], .cls .c8, .mem, 0⟩,
  ⟨"xchgl", 23862, [], false, [0x87], .cls .c32, .cls .c32, 0⟩,
  ⟨"xchgl", 23876, [], false, [0x87], .cls .c32, .mem, 0⟩,
  ⟨"xchgl", 23901, [], false, [0x87], .cls .c32, .mem, 0⟩,
  ⟨"movb", 10735, [], false, [0x88], .cls .c8, .mem, 0⟩,
  ⟨"movl", 11055, [], false, [0x89], .cls .c32, .mem, 0⟩,
  ⟨"movb", 10707, [], false, [0x8A], .cls .c8, .cls .c8, 0⟩,
  ⟨"movb", 10721, [], false, [0x8A], .cls .c8, .mem, 0⟩,
  ⟨"movl", 11027, [], false, [0x8B], .cls .c32, .cls .c32, 0⟩,
  ⟨"movl", 11041, [], false, [0x8B], .cls .c32, .mem, 0⟩,
  ⟨"leal", 10171, [], false, [0x8D], .cls .c32, .mem, 0⟩,
  ⟨"popq", 15838, [], false, [0x8F], .digit 0, .mem, 0⟩,
  ⟨"rolb", 18034, [], false, [0xC0], .digit 0, .cls .c8, 1⟩,
  ⟨"rolb", 18049, [], false, [0xC0], .digit 0, .mem, 1⟩,
  ⟨"rorb", 18392, [], false, [0xC0], .digit 1, .cls .c8, 1⟩,
  ⟨"rorb", 18407, [], false, [0xC0], .digit 1, .mem, 1⟩,
  ⟨"rclb", 17229, [], false, [0xC0], .digit 2, .cls .c8, 1⟩,
  ⟨"rclb", 17244, [], false, [0xC0], .digit 2, .mem, 1⟩,
  ⟨"rcrb", 17653, [], false, [0xC0], .digit 3, .cls .c8, 1⟩,
  ⟨"rcrb", 17668, [], false, [0xC0], .digit 3, .mem, 1⟩,
  ⟨"salb", 18968, [], false, [0xC0], .digit 4, .cls .c8, 1⟩,
  ⟨"shlb", 21109, [], false, [0xC0], .digit 4, .cls .c8, 1⟩,
  ⟨"salb", 18983, [], false, [0xC0], .digit 4, .mem, 1⟩,
  ⟨"shlb", 21124, [], false, [0xC0], .digit 4, .mem, 1⟩,
  ⟨"shrb", 21663, [], false, [0xC0], .digit 5, .cls .c8, 1⟩,
  ⟨"shrb", 21678, [], false, [0xC0], .digit 5, .mem, 1⟩,
  ⟨"sarb", 19326, [], false, [0xC0], .digit 7, .cls .c8, 1⟩,
  ⟨"sarb", 19341, [], false, [0xC0], .digit 7, .mem, 1⟩,
  ⟨"roll", 18122, [], false, [0xC1], .digit 0, .cls .c32, 1⟩,
  ⟨"roll", 18137, [], false, [0xC1], .digit 0, .mem, 1⟩,
  ⟨"rorl", 18480, [], false, [0xC1], .digit 1, .cls .c32, 1⟩,
  ⟨"rorl", 18495, [], false, [0xC1], .digit 1, .mem, 1⟩,
  ⟨"rcll", 17317, [], false, [0xC1], .digit 2, .cls .c32, 1⟩,
  ⟨"rcll", 17332, [], false, [0xC1], .digit 2, .mem, 1⟩,
  ⟨"rcrl", 17741, [], false, [0xC1], .digit 3, .cls .c32, 1⟩,
  ⟨"rcrl", 17756, [], false, [0xC1], .digit 3, .mem, 1⟩,
  ⟨"sall", 19056, [], false, [0xC1], .digit 4, .cls .c32, 1⟩,
  ⟨"shll", 21393, [], false, [0xC1], .digit 4, .cls .c32, 1⟩,
  ⟨"sall", 19071, [], false, [0xC1], .digit 4, .mem, 1⟩,
  ⟨"shll", 21408, [], false, [0xC1], .digit 4, .mem, 1⟩,
  ⟨"shrl", 21947, [], false, [0xC1], .digit 5, .cls .c32, 1⟩,
  ⟨"shrl", 21962, [], false, [0xC1], .digit 5, .mem, 1⟩,
  ⟨"sarl", 19414, [], false, [0xC1], .digit 7, .cls .c32, 1⟩,
  ⟨"sarl", 19429, [], false, [0xC1], .digit 7, .mem, 1⟩,
  ⟨"movb", 10749, [], false, [0xC6], .digit 0, .mem, 1⟩,
  ⟨"movl", 11069, [], false, [0xC7], .digit 0, .mem, 4⟩,
  ⟨"rolb", 18064, [], false, [0xD0], .digit 0, .cls .c8, 0⟩,
  ⟨"rolb", 18078, [], false, [0xD0], .digit 0, .mem, 0⟩,
  ⟨"rorb", 18422, [], false, [0xD0], .digit 1, .cls .c8, 0⟩,
  ⟨"rorb", 18436, [], false, [0xD0], .digit 1, .mem, 0⟩,
  ⟨"rclb", 17259, [], false, [0xD0], .digit 2, .cls .c8, 0⟩,
  ⟨"rclb", 17273, [], false, [0xD0], .digit 2, .mem, 0⟩,
  ⟨"rcrb", 17683, [], false, [0xD0], .digit 3, .cls .c8, 0⟩,
  ⟨"rcrb", 17697, [], false, [0xD0], .digit 3, .mem, 0⟩,
  ⟨"salb", 18998, [], false, [0xD0], .digit 4, .cls .c8, 0⟩,
  ⟨"shlb", 21139, [], false, [0xD0], .digit 4, .cls .c8, 0⟩,
  ⟨"salb", 19012, [], false, [0xD0], .digit 4, .mem, 0⟩,
  ⟨"shlb", 21153, [], false, [0xD0], .digit 4, .mem, 0⟩,
  ⟨"shrb", 21693, [], false, [0xD0], .digit 5, .cls .c8, 0⟩,
  ⟨"shrb", 21707, [], false, [0xD0], .digit 5, .mem, 0⟩,
  ⟨"sarb", 19356, [], false, [0xD0], .digit 7, .cls .c8, 0⟩,
  ⟨"sarb", 19370, [], false, [0xD0], .digit 7, .mem, 0⟩,
  ⟨"roll", 18152, [], false, [0xD1], .digit 0, .cls .c32, 0⟩,
  ⟨"roll", 18166, [], false, [0xD1], .digit 0, .mem, 0⟩,
  ⟨"rorl", 18510, [], false, [0xD1], .digit 1, .cls .c32, 0⟩,
  ⟨"rorl", 18524, [], false, [0xD1], .digit 1, .mem, 0⟩,
  ⟨"rcll", 17347, [], false, [0xD1], .digit 2, .cls .c32, 0⟩,
  ⟨"rcll", 17361, [], false, [0xD1], .digit 2, .mem, 0⟩,
  ⟨"rcrl", 17771, [], false, [0xD1], .digit 3, .cls .c32, 0⟩,
  ⟨"rcrl", 17785, [], false, [0xD1], .digit 3, .mem, 0⟩,
  ⟨"sall", 19086, [], false, [0xD1], .digit 4, .cls .c32, 0⟩,
  ⟨"shll", 21423, [], false, [0xD1], .digit 4, .cls .c32, 0⟩,
  ⟨"sall", 19100, [], false, [0xD1], .digit 4, .mem, 0⟩,
  ⟨"shll", 21437, [], false, [0xD1], .digit 4, .mem, 0⟩,
  ⟨"shrl", 21977, [], false, [0xD1], .digit 5, .cls .c32, 0⟩,
  ⟨"shrl", 21991, [], false, [0xD1], .digit 5, .mem, 0⟩,
  ⟨"sarl", 19444, [], false, [0xD1], .digit 7, .cls .c32, 0⟩,
  ⟨"sarl", 19458, [], false, [0xD1], .digit 7, .mem, 0⟩,
  ⟨"rolb", 18092, [], false, [0xD2], .digit 0, .cls .c8, 0⟩,
  ⟨"rolb", 18106, [], false, [0xD2], .digit 0, .mem, 0⟩,
  ⟨"rorb", 18450, [], false, [0xD2], .digit 1, .cls .c8, 0⟩,
  ⟨"rorb", 18464, [], false, [0xD2], .digit 1, .mem, 0⟩,
  ⟨"rclb", 17287, [], false, [0xD2], .digit 2, .cls .c8, 0⟩,
  ⟨"rclb", 17301, [], false, [0xD2], .digit 2, .mem, 0⟩,
  ⟨"rcrb", 17711, [], false, [0xD2], .digit 3, .cls .c8, 0⟩,
  ⟨"rcrb", 17725, [], false, [0xD2], .digit 3, .mem, 0⟩,
  ⟨"salb", 19026, [], false, [0xD2], .digit 4, .cls .c8, 0⟩,
  ⟨"shlb", 21167, [], false, [0xD2], .digit 4, .cls .c8, 0⟩,
  ⟨"salb", 19040, [], false, [0xD2], .digit 4, .mem, 0⟩,
  ⟨"shlb", 21181, [], false, [0xD2], .digit 4, .mem, 0⟩,
  ⟨"shrb", 21721, [], false, [0xD2], .digit 5, .cls .c8, 0⟩,
  ⟨"shrb", 21735, [], false, [0xD2], .digit 5, .mem, 0⟩,
  ⟨"sarb", 19384, [], false, [0xD2], .digit 7, .cls .c8, 0⟩,
  ⟨"sarb", 19398, [], false, [0xD2], .digit 7, .mem, 0⟩]

/-- Part of `forms`. -/
def forms1 : List Form := [
  ⟨"roll", 18180, [], false, [0xD3], .digit 0, .cls .c32, 0⟩,
  ⟨"roll", 18194, [], false, [0xD3], .digit 0, .mem, 0⟩,
  ⟨"rorl", 18538, [], false, [0xD3], .digit 1, .cls .c32, 0⟩,
  ⟨"rorl", 18552, [], false, [0xD3], .digit 1, .mem, 0⟩,
  ⟨"rcll", 17375, [], false, [0xD3], .digit 2, .cls .c32, 0⟩,
  ⟨"rcll", 17389, [], false, [0xD3], .digit 2, .mem, 0⟩,
  ⟨"rcrl", 17799, [], false, [0xD3], .digit 3, .cls .c32, 0⟩,
  ⟨"rcrl", 17813, [], false, [0xD3], .digit 3, .mem, 0⟩,
  ⟨"sall", 19114, [], false, [0xD3], .digit 4, .cls .c32, 0⟩,
  ⟨"shll", 21451, [], false, [0xD3], .digit 4, .cls .c32, 0⟩,
  ⟨"sall", 19128, [], false, [0xD3], .digit 4, .mem, 0⟩,
  ⟨"shll", 21465, [], false, [0xD3], .digit 4, .mem, 0⟩,
  ⟨"shrl", 22005, [], false, [0xD3], .digit 5, .cls .c32, 0⟩,
  ⟨"shrl", 22019, [], false, [0xD3], .digit 5, .mem, 0⟩,
  ⟨"sarl", 19472, [], false, [0xD3], .digit 7, .cls .c32, 0⟩,
  ⟨"sarl", 19486, [], false, [0xD3], .digit 7, .mem, 0⟩,
  ⟨"testb", 23132, [], false, [0xF6], .digit 0, .cls .c8, 1⟩,
  ⟨"testb", 23147, [], false, [0xF6], .digit 0, .mem, 1⟩,
  ⟨"notb", 12539, [], false, [0xF6], .digit 2, .cls .c8, 0⟩,
  ⟨"notb", 12553, [], false, [0xF6], .digit 2, .mem, 0⟩,
  ⟨"negb", 12406, [], false, [0xF6], .digit 3, .cls .c8, 0⟩,
  ⟨"negb", 12420, [], false, [0xF6], .digit 3, .mem, 0⟩,
  ⟨"mulb", 12150, [], false, [0xF6], .digit 4, .cls .c8, 0⟩,
  ⟨"mulb", 12164, [], false, [0xF6], .digit 4, .mem, 0⟩,
  ⟨"imulb", 8670, [], false, [0xF6], .digit 5, .cls .c8, 0⟩,
  ⟨"imulb", 8684, [], false, [0xF6], .digit 5, .mem, 0⟩,
  ⟨"divb", 8155, [], false, [0xF6], .digit 6, .cls .c8, 0⟩,
  ⟨"divb", 8169, [], false, [0xF6], .digit 6, .mem, 0⟩,
  ⟨"idivb", 8548, [], false, [0xF6], .digit 7, .cls .c8, 0⟩,
  ⟨"idivb", 8562, [], false, [0xF6], .digit 7, .mem, 0⟩,
  ⟨"testl", 23202, [], false, [0xF7], .digit 0, .cls .c32, 4⟩,
  ⟨"testl", 23217, [], false, [0xF7], .digit 0, .mem, 4⟩,
  ⟨"notl", 12569, [], false, [0xF7], .digit 2, .cls .c32, 0⟩,
  ⟨"notl", 12583, [], false, [0xF7], .digit 2, .mem, 0⟩,
  ⟨"negl", 12436, [], false, [0xF7], .digit 3, .cls .c32, 0⟩,
  ⟨"negl", 12450, [], false, [0xF7], .digit 3, .mem, 0⟩,
  ⟨"mull", 12180, [], false, [0xF7], .digit 4, .cls .c32, 0⟩,
  ⟨"mull", 12194, [], false, [0xF7], .digit 4, .mem, 0⟩,
  ⟨"imull1", 8762, [], false, [0xF7], .digit 5, .cls .c32, 0⟩,
  ⟨"imull1", 8776, [], false, [0xF7], .digit 5, .mem, 0⟩,
  ⟨"divl", 8185, [], false, [0xF7], .digit 6, .cls .c32, 0⟩,
  ⟨"divl", 8199, [], false, [0xF7], .digit 6, .mem, 0⟩,
  ⟨"idivl", 8578, [], false, [0xF7], .digit 7, .cls .c32, 0⟩,
  ⟨"idivl", 8592, [], false, [0xF7], .digit 7, .mem, 0⟩,
  ⟨"incb", 9101, [], false, [0xFE], .digit 0, .cls .c8, 0⟩,
  ⟨"incb", 9115, [], false, [0xFE], .digit 0, .mem, 0⟩,
  ⟨"decb", 8033, [], false, [0xFE], .digit 1, .cls .c8, 0⟩,
  ⟨"decb", 8047, [], false, [0xFE], .digit 1, .mem, 0⟩,
  ⟨"incl", 9131, [], false, [0xFF], .digit 0, .cls .c32, 0⟩,
  ⟨"incl", 9145, [], false, [0xFF], .digit 0, .mem, 0⟩,
  ⟨"decl", 8063, [], false, [0xFF], .digit 1, .cls .c32, 0⟩,
  ⟨"decl", 8077, [], false, [0xFF], .digit 1, .mem, 0⟩,
  ⟨"callq", 6165, [], false, [0xFF], .digit 2, .cls .c64, 0⟩,
  ⟨"callq", 6179, [], false, [0xFF], .digit 2, .mem, 0⟩,
  ⟨"jmpq", 9652, [], false, [0xFF], .digit 4, .cls .c64, 0⟩,
  ⟨"jmpq", 9666, [], false, [0xFF], .digit 4, .mem, 0⟩,
  ⟨"pushq", 17150, [], false, [0xFF], .digit 6, .mem, 0⟩,
  ⟨"verr", 23600, [], false, [0x0F, 0x00], .digit 4, .cls .c16, 0⟩,
  ⟨"verr", 23615, [], false, [0x0F, 0x00], .digit 4, .mem, 0⟩,
  ⟨"verw", 23632, [], false, [0x0F, 0x00], .digit 5, .cls .c16, 0⟩,
  ⟨"verw", 23647, [], false, [0x0F, 0x00], .digit 5, .mem, 0⟩,
  ⟨"sgdt", 21092, [], false, [0x0F, 0x01], .digit 0, .mem, 0⟩,
  ⟨"sidt", 22287, [], false, [0x0F, 0x01], .digit 1, .mem, 0⟩,
  ⟨"lmsw", 10256, [], false, [0x0F, 0x01], .digit 6, .cls .c16, 0⟩,
  ⟨"lmsw", 10271, [], false, [0x0F, 0x01], .digit 6, .mem, 0⟩,
  ⟨"invlpg", 9315, [], false, [0x0F, 0x01], .digit 7, .mem, 0⟩,
  ⟨"movups", 11827, [], false, [0x0F, 0x10], .cls .cx, .cls .cx, 0⟩,
  ⟨"movups", 11842, [], false, [0x0F, 0x10], .cls .cx, .mem, 0⟩,
  ⟨"movups", 11857, [], false, [0x0F, 0x11], .cls .cx, .mem, 0⟩,
  ⟨"movhlps", 10932, [], false, [0x0F, 0x12], .cls .cx, .cls .cx, 0⟩,
  ⟨"movlps", 11152, [], false, [0x0F, 0x12], .cls .cx, .mem, 0⟩,
  ⟨"movlps", 11137, [], false, [0x0F, 0x13], .cls .cx, .mem, 0⟩,
  ⟨"unpcklps", 23568, [], false, [0x0F, 0x14], .cls .cx, .cls .cx, 0⟩,
  ⟨"unpcklps", 23583, [], false, [0x0F, 0x14], .cls .cx, .mem, 0⟩,
  ⟨"unpckhps", 23502, [], false, [0x0F, 0x15], .cls .cx, .cls .cx, 0⟩,
  ⟨"unpckhps", 23517, [], false, [0x0F, 0x15], .cls .cx, .mem, 0⟩,
  ⟨"movlhps", 11086, [], false, [0x0F, 0x16], .cls .cx, .cls .cx, 0⟩,
  ⟨"movhps", 10998, [], false, [0x0F, 0x16], .cls .cx, .mem, 0⟩,
  ⟨"movhps", 10983, [], false, [0x0F, 0x17], .cls .cx, .mem, 0⟩,
  ⟨"movaps", 10648, [], false, [0x0F, 0x28], .cls .cx, .cls .cx, 0⟩,
  ⟨"movaps", 10663, [], false, [0x0F, 0x28], .cls .cx, .mem, 0⟩,
  ⟨"movaps", 10678, [], false, [0x0F, 0x29], .cls .cx, .mem, 0⟩,
  ⟨"movntps", 11291, [], false, [0x0F, 0x2B], .cls .cx, .mem, 0⟩,
  ⟨"ucomiss", 23424, [], false, [0x0F, 0x2E], .cls .cx, .cls .cx, 0⟩,
  ⟨"ucomiss", 23439, [], false, [0x0F, 0x2E], .cls .cx, .mem, 0⟩,
  ⟨"comiss", 7038, [], false, [0x0F, 0x2F], .cls .cx, .cls .cx, 0⟩,
  ⟨"comiss", 7053, [], false, [0x0F, 0x2F], .cls .cx, .mem, 0⟩,
  ⟨"movmskps", 11187, [], false, [0x0F, 0x50], .cls .c64, .cls .cx, 0⟩,
  ⟨"sqrtps", 22338, [], false, [0x0F, 0x51], .cls .cx, .cls .cx, 0⟩,
  ⟨"sqrtps", 22353, [], false, [0x0F, 0x51], .cls .cx, .mem, 0⟩,
  ⟨"rsqrtps", 18902, [], false, [0x0F, 0x52], .cls .cx, .cls .cx, 0⟩,
  ⟨"rsqrtps", 18917, [], false, [0x0F, 0x52], .cls .cx, .mem, 0⟩,
  ⟨"rcpps", 17587, [], false, [0x0F, 0x53], .cls .cx, .cls .cx, 0⟩,
  ⟨"rcpps", 17602, [], false, [0x0F, 0x53], .cls .cx, .mem, 0⟩,
  ⟨"andps", 4732, [], false, [0x0F, 0x54], .cls .cx, .cls .cx, 0⟩,
  ⟨"andps", 4747, [], false, [0x0F, 0x54], .cls .cx, .mem, 0⟩,
  ⟨"andnps", 4666, [], false, [0x0F, 0x55], .cls .cx, .cls .cx, 0⟩,
  ⟨"andnps", 4681, [], false, [0x0F, 0x55], .cls .cx, .mem, 0⟩,
  ⟨"orps", 12893, [], false, [0x0F, 0x56], .cls .cx, .cls .cx, 0⟩,
  ⟨"orps", 12908, [], false, [0x0F, 0x56], .cls .cx, .mem, 0⟩,
  ⟨"xorps", 24297, [], false, [0x0F, 0x57], .cls .cx, .cls .cx, 0⟩,
  ⟨"xorps", 24312, [], false, [0x0F, 0x57], .cls .cx, .mem, 0⟩,
  ⟨"addps", 4097, [], false, [0x0F, 0x58], .cls .cx, .cls .cx, 0⟩,
  ⟨"addps", 4112, [], false, [0x0F, 0x58], .cls .cx, .mem, 0⟩,
  ⟨"mulps", 12244, [], false, [0x0F, 0x59], .cls .cx, .cls .cx, 0⟩,
  ⟨"mulps", 12259, [], false, [0x0F, 0x59], .cls .cx, .mem, 0⟩,
  ⟨"cvtps2pd", 7442, [], false, [0x0F, 0x5A], .cls .cx, .cls .cx, 0⟩,
  ⟨"cvtps2pd", 7457, [], false, [0x0F, 0x5A], .cls .cx, .mem, 0⟩,
  ⟨"cvtdq2ps", 7308, [], false, [0x0F, 0x5B], .cls .cx, .cls .cx, 0⟩,
  ⟨"cvtdq2ps", 7323, [], false, [0x0F, 0x5B], .cls .cx, .mem, 0⟩,
  ⟨"subps", 22754, [], false, [0x0F, 0x5C], .cls .cx, .cls .cx, 0⟩,
  ⟨"subps", 22769, [], false, [0x0F, 0x5C], .cls .cx, .mem, 0⟩,
  ⟨"minps", 10498, [], false, [0x0F, 0x5D], .cls .cx, .cls .cx, 0⟩,
  ⟨"minps", 10513, [], false, [0x0F, 0x5D], .cls .cx, .mem, 0⟩,
  ⟨"divps", 8249, [], false, [0x0F, 0x5E], .cls .cx, .cls .cx, 0⟩,
  ⟨"divps", 8264, [], false, [0x0F, 0x5E], .cls .cx, .mem, 0⟩,
  ⟨"maxps", 10351, [], false, [0x0F, 0x5F], .cls .cx, .cls .cx, 0⟩,
  ⟨"maxps", 10366, [], false, [0x0F, 0x5F], .cls .cx, .mem, 0⟩,
  ⟨"seto", 20887, [], false, [0x0F, 0x90], .digit 0, .cls .c8, 0⟩,
  ⟨"seto", 20902, [], false, [0x0F, 0x90], .digit 0, .mem, 0⟩,
  ⟨"setno", 20759, [], false, [0x0F, 0x91], .digit 0, .cls .c8, 0⟩,
  ⟨"setno", 20774, [], false, [0x0F, 0x91], .digit 0, .mem, 0⟩,
  ⟨"setb", 20183, [], false, [0x0F, 0x92], .digit 0, .cls .c8, 0⟩,
  ⟨"setc", 20247, [], false, [0x0F, 0x92], .digit 0, .cls .c8, 0⟩,
  ⟨"setnae", 20471, [], false, [0x0F, 0x92], .digit 0, .cls .c8, 0⟩,
  ⟨"setb", 20198, [], false, [0x0F, 0x92], .digit 0, .mem, 0⟩,
  ⟨"setc", 20262, [], false, [0x0F, 0x92], .digit 0, .mem, 0⟩,
  ⟨"setnae", 20486, [], false, [0x0F, 0x92], .digit 0, .mem, 0⟩,
  ⟨"setae", 20151, [], false, [0x0F, 0x93], .digit 0, .cls .c8, 0⟩,
  ⟨"setnb", 20503, [], false, [0x0F, 0x93], .digit 0, .cls .c8, 0⟩,
  ⟨"setnc", 20567, [], false, [0x0F, 0x93], .digit 0, .cls .c8, 0⟩,
  ⟨"setae", 20166, [], false, [0x0F, 0x93], .digit 0, .mem, 0⟩,
  ⟨"setnb", 20518, [], false, [0x0F, 0x93], .digit 0, .mem, 0⟩,
  ⟨"setnc", 20582, [], false, [0x0F, 0x93], .digit 0, .mem, 0⟩,
  ⟨"sete", 20279, [], false, [0x0F, 0x94], .digit 0, .cls .c8, 0⟩,
  ⟨"setz", 21047, [], false, [0x0F, 0x94], .digit 0, .cls .c8, 0⟩,
  ⟨"sete", 20294, [], false, [0x0F, 0x94], .digit 0, .mem, 0⟩,
  ⟨"setz", 21062, [], false, [0x0F, 0x94], .digit 0, .mem, 0⟩,
  ⟨"setne", 20599, [], false, [0x0F, 0x95], .digit 0, .cls .c8, 0⟩,
  ⟨"setnz", 20855, [], false, [0x0F, 0x95], .digit 0, .cls .c8, 0⟩,
  ⟨"setne", 20614, [], false, [0x0F, 0x95], .digit 0, .mem, 0⟩,
  ⟨"setnz", 20870, [], false, [0x0F, 0x95], .digit 0, .mem, 0⟩,
  ⟨"setbe", 20215, [], false, [0x0F, 0x96], .digit 0, .cls .c8, 0⟩,
  ⟨"setna", 20439, [], false, [0x0F, 0x96], .digit 0, .cls .c8, 0⟩,
  ⟨"setbe", 20230, [], false, [0x0F, 0x96], .digit 0, .mem, 0⟩,
  ⟨"setna", 20454, [], false, [0x0F, 0x96], .digit 0, .mem, 0⟩,
  ⟨"seta", 20119, [], false, [0x0F, 0x97], .digit 0, .cls .c8, 0⟩,
  ⟨"setnbe", 20535, [], false, [0x0F, 0x97], .digit 0, .cls .c8, 0⟩,
  ⟨"seta", 20134, [], false, [0x0F, 0x97], .digit 0, .mem, 0⟩,
  ⟨"setnbe", 20550, [], false, [0x0F, 0x97], .digit 0, .mem, 0⟩,
  ⟨"sets", 21015, [], false, [0x0F, 0x98], .digit 0, .cls .c8, 0⟩,
  ⟨"sets", 21030, [], false, [0x0F, 0x98], .digit 0, .mem, 0⟩,
  ⟨"setns", 20823, [], false, [0x0F, 0x99], .digit 0, .cls .c8, 0⟩,
  ⟨"setns", 20838, [], false, [0x0F, 0x99], .digit 0, .mem, 0⟩,
  ⟨"setp", 20919, [], false, [0x0F, 0x9A], .digit 0, .cls .c8, 0⟩,
  ⟨"setpe", 20951, [], false, [0x0F, 0x9A], .digit 0, .cls .c8, 0⟩,
  ⟨"setp", 20934, [], false, [0x0F, 0x9A], .digit 0, .mem, 0⟩,
  ⟨"setpe", 20966, [], false, [0x0F, 0x9A], .digit 0, .mem, 0⟩,
  ⟨"setnp", 20791, [], false, [0x0F, 0x9B], .digit 0, .cls .c8, 0⟩,
  ⟨"setpo", 20983, [], false, [0x0F, 0x9B], .digit 0, .cls .c8, 0⟩,
  ⟨"setnp", 20806, [], false, [0x0F, 0x9B], .digit 0, .mem, 0⟩,
  ⟨"setpo", 20998, [], false, [0x0F, 0x9B], .digit 0, .mem, 0⟩,
  ⟨"setl", 20375, [], false, [0x0F, 0x9C], .digit 0, .cls .c8, 0⟩,
  ⟨"setnge", 20663, [], false, [0x0F, 0x9C], .digit 0, .cls .c8, 0⟩,
  ⟨"setl", 20390, [], false, [0x0F, 0x9C], .digit 0, .mem, 0⟩,
  ⟨"setnge", 20678, [], false, [0x0F, 0x9C], .digit 0, .mem, 0⟩,
  ⟨"setge", 20343, [], false, [0x0F, 0x9D], .digit 0, .cls .c8, 0⟩,
  ⟨"setnl", 20695, [], false, [0x0F, 0x9D], .digit 0, .cls .c8, 0⟩,
  ⟨"setge", 20358, [], false, [0x0F, 0x9D], .digit 0, .mem, 0⟩,
  ⟨"setnl", 20710, [], false, [0x0F, 0x9D], .digit 0, .mem, 0⟩,
  ⟨"setle", 20407, [], false, [0x0F, 0x9E], .digit 0, .cls .c8, 0⟩,
  ⟨"setng", 20631, [], false, [0x0F, 0x9E], .digit 0, .cls .c8, 0⟩,
  ⟨"setle", 20422, [], false, [0x0F, 0x9E], .digit 0, .mem, 0⟩,
  ⟨"setng", 20646, [], false, [0x0F, 0x9E], .digit 0, .mem, 0⟩,
  ⟨"setg", 20311, [], false, [0x0F, 0x9F], .digit 0, .cls .c8, 0⟩,
  ⟨"setnle", 20727, [], false, [0x0F, 0x9F], .digit 0, .cls .c8, 0⟩,
  ⟨"setg", 20326, [], false, [0x0F, 0x9F], .digit 0, .mem, 0⟩,
  ⟨"setnle", 20742, [], false, [0x0F, 0x9F], .digit 0, .mem, 0⟩,
  ⟨"btl", 5567, [], false, [0x0F, 0xA3], .cls .c32, .cls .c32, 0⟩,
  ⟨"btl", 5582, [], false, [0x0F, 0xA3], .cls .c32, .mem, 0⟩,
  ⟨"shldl", 21197, [], false, [0x0F, 0xA4], .cls .c32, .cls .c32, 1⟩,
  ⟨"shldl", 21213, [], false, [0x0F, 0xA4], .cls .c32, .mem, 1⟩,
  ⟨"shldl", 21229, [], false, [0x0F, 0xA5], .cls .c32, .cls .c32, 0⟩,
  ⟨"shldl", 21244, [], false, [0x0F, 0xA5], .cls .c32, .mem, 0⟩,
  ⟨"btsl", 5891, [], false, [0x0F, 0xAB], .cls .c32, .cls .c32, 0⟩,
  ⟨"btsl", 5906, [], false, [0x0F, 0xAB], .cls .c32, .mem, 0⟩,
  ⟨"shrdl", 21751, [], false, [0x0F, 0xAC], .cls .c32, .cls .c32, 1⟩,
  ⟨"shrdl", 21767, [], false, [0x0F, 0xAC], .cls .c32, .mem, 1⟩,
  ⟨"shrdl", 21783, [], false, [0x0F, 0xAD], .cls .c32, .cls .c32, 0⟩,
  ⟨"shrdl", 21798, [], false, [0x0F, 0xAD], .cls .c32, .mem, 0⟩,
  ⟨"ldmxcsr", 10154, [], false, [0x0F, 0xAE], .digit 2, .mem, 0⟩,
  ⟨"stmxcsr", 22471, [], false, [0x0F, 0xAE], .digit 3, .mem, 0⟩,
  ⟨"imull2", 8792, [], false, [0x0F, 0xAF], .cls .c32, .cls .c32, 0⟩,
  ⟨"imull2", 8807, [], false, [0x0F, 0xAF], .cls .c32, .mem, 0⟩,
  ⟨"cmpxchgb", 6874, [], false, [0x0F, 0xB0], .cls .c8, .cls .c8, 0⟩,
  ⟨"cmpxchgb", 6889, [], false, [0x0F, 0xB0], .cls .c8, .mem, 0⟩,
  ⟨"cmpxchgl", 6906, [], false, [0x0F, 0xB1], .cls .c32, .cls .c32, 0⟩,
  ⟨"cmpxchgl", 6921, [], false, [0x0F, 0xB1], .cls .c32, .mem, 0⟩,
  ⟨"btrl", 5695, [], false, [0x0F, 0xB3], .cls .c32, .cls .c32, 0⟩,
  ⟨"btrl", 5710, [], false, [0x0F, 0xB3], .cls .c32, .mem, 0⟩]

/-- Part of `forms`. -/
def forms2 : List Form := [
  ⟨"movzbl", 11950, [], false, [0x0F, 0xB6], .cls .c32, .cls .c8, 0⟩,
  ⟨"movzbl", 11965, [], false, [0x0F, 0xB6], .cls .c32, .mem, 0⟩,
  ⟨"movzwl", 12048, [], false, [0x0F, 0xB7], .cls .c32, .cls .c16, 0⟩,
  ⟨"movzwl", 12063, [], false, [0x0F, 0xB7], .cls .c32, .mem, 0⟩,
  ⟨"btl", 5597, [], false, [0x0F, 0xBA], .digit 4, .cls .c32, 1⟩,
  ⟨"btl", 5613, [], false, [0x0F, 0xBA], .digit 4, .mem, 1⟩,
  ⟨"btsl", 5921, [], false, [0x0F, 0xBA], .digit 5, .cls .c32, 1⟩,
  ⟨"btsl", 5937, [], false, [0x0F, 0xBA], .digit 5, .mem, 1⟩,
  ⟨"btrl", 5725, [], false, [0x0F, 0xBA], .digit 6, .cls .c32, 1⟩,
  ⟨"btrl", 5741, [], false, [0x0F, 0xBA], .digit 6, .mem, 1⟩,
  ⟨"btcl", 5401, [], false, [0x0F, 0xBA], .digit 7, .cls .c32, 1⟩,
  ⟨"btcl", 5417, [], false, [0x0F, 0xBA], .digit 7, .mem, 1⟩,
  ⟨"btcl", 5371, [], false, [0x0F, 0xBB], .cls .c32, .cls .c32, 0⟩,
  ⟨"btcl", 5386, [], false, [0x0F, 0xBB], .cls .c32, .mem, 0⟩,
  ⟨"bsfl", 5149, [], false, [0x0F, 0xBC], .cls .c32, .cls .c32, 0⟩,
  ⟨"bsfl", 5164, [], false, [0x0F, 0xBC], .cls .c32, .mem, 0⟩,
  ⟨"bsrl", 5247, [], false, [0x0F, 0xBD], .cls .c32, .cls .c32, 0⟩,
  ⟨"bsrl", 5262, [], false, [0x0F, 0xBD], .cls .c32, .mem, 0⟩,
  ⟨"movsbl", 11474, [], false, [0x0F, 0xBE], .cls .c32, .cls .c8, 0⟩,
  ⟨"movsbl", 11489, [], false, [0x0F, 0xBE], .cls .c32, .mem, 0⟩,
  ⟨"movswl", 11713, [], false, [0x0F, 0xBF], .cls .c32, .cls .c16, 0⟩,
  ⟨"movswl", 11728, [], false, [0x0F, 0xBF], .cls .c32, .mem, 0⟩,
  ⟨"xaddb", 23688, [], false, [0x0F, 0xC0], .cls .c8, .cls .c8, 0⟩,
  ⟨"xaddb", 23703, [], false, [0x0F, 0xC0], .cls .c8, .mem, 0⟩,
  ⟨"xaddl", 23720, [], false, [0x0F, 0xC1], .cls .c32, .cls .c32, 0⟩,
  ⟨"xaddl", 23735, [], false, [0x0F, 0xC1], .cls .c32, .mem, 0⟩,
  ⟨"cmpps", 6520, [], false, [0x0F, 0xC2], .cls .cx, .cls .cx, 1⟩,
  ⟨"cmpps", 6536, [], false, [0x0F, 0xC2], .cls .cx, .mem, 1⟩,
  ⟨"movnti", 11241, [], false, [0x0F, 0xC3], .cls .c32, .mem, 0⟩,
  ⟨"shufps", 22253, [], false, [0x0F, 0xC6], .cls .cx, .cls .cx, 1⟩,
  ⟨"shufps", 22269, [], false, [0x0F, 0xC6], .cls .cx, .mem, 1⟩,
  ⟨"addq", 4157, [], true, [0x01], .cls .c64, .mem, 0⟩,
  ⟨"addq", 4129, [], true, [0x03], .cls .c64, .cls .c64, 0⟩,
  ⟨"addq", 4143, [], true, [0x03], .cls .c64, .mem, 0⟩,
  ⟨"orq", 12953, [], true, [0x09], .cls .c64, .mem, 0⟩,
  ⟨"orq", 12925, [], true, [0x0B], .cls .c64, .cls .c64, 0⟩,
  ⟨"orq", 12939, [], true, [0x0B], .cls .c64, .mem, 0⟩,
  ⟨"adcq", 3656, [], true, [0x11], .cls .c64, .mem, 0⟩,
  ⟨"adcq", 3628, [], true, [0x13], .cls .c64, .cls .c64, 0⟩,
  ⟨"adcq", 3642, [], true, [0x13], .cls .c64, .mem, 0⟩,
  ⟨"sbbq", 19910, [], true, [0x19], .cls .c64, .mem, 0⟩,
  ⟨"sbbq", 19882, [], true, [0x1B], .cls .c64, .cls .c64, 0⟩,
  ⟨"sbbq", 19896, [], true, [0x1B], .cls .c64, .mem, 0⟩,
  ⟨"andq", 4792, [], true, [0x21], .cls .c64, .mem, 0⟩,
  ⟨"andq", 4764, [], true, [0x23], .cls .c64, .cls .c64, 0⟩,
  ⟨"andq", 4778, [], true, [0x23], .cls .c64, .mem, 0⟩,
  ⟨"subq", 22814, [], true, [0x29], .cls .c64, .mem, 0⟩,
  ⟨"subq", 22786, [], true, [0x2B], .cls .c64, .cls .c64, 0⟩,
  ⟨"subq", 22800, [], true, [0x2B], .cls .c64, .mem, 0⟩,
  ⟨"xorq", 24357, [], true, [0x31], .cls .c64, .mem, 0⟩,
  ⟨"xorq", 24329, [], true, [0x33], .cls .c64, .cls .c64, 0⟩,
  ⟨"xorq", 24343, [], true, [0x33], .cls .c64, .mem, 0⟩,
  ⟨"cmpq", 6582, [], true, [0x39], .cls .c64, .mem, 0⟩,
  ⟨"cmpq", 6554, [], true, [0x3B], .cls .c64, .cls .c64, 0⟩,
  ⟨"cmpq", 6568, [], true, [0x3B], .cls .c64, .mem, 0⟩,
  ⟨"movslq", 11633, [], true, [0x63], .cls .c64, .cls .c32, 0⟩,
  ⟨"movslq", 11647, [], true, [0x63], .cls .c64, .mem, 0⟩,
  ⟨"imulq", 8854, [], true, [0x69], .cls .c64, .cls .c64, 4⟩,
  ⟨"imulq", 8869, [], true, [0x69], .cls .c64, .mem, 4⟩,
  ⟨"imulq", 8824, [], true, [0x6B], .cls .c64, .cls .c64, 1⟩,
  ⟨"imulq", 8839, [], true, [0x6B], .cls .c64, .mem, 1⟩,
  ⟨"addq", 4201, [], true, [0x81], .digit 0, .cls .c64, 4⟩,
  ⟨"addq", 4216, [], true, [0x81], .digit 0, .mem, 4⟩,
  ⟨"orq", 12997, [], true, [0x81], .digit 1, .cls .c64, 4⟩,
  ⟨"orq", 13012, [], true, [0x81], .digit 1, .mem, 4⟩,
  ⟨"adcq", 3700, [], true, [0x81], .digit 2, .cls .c64, 4⟩,
  ⟨"adcq", 3715, [], true, [0x81], .digit 2, .mem, 4⟩,
  ⟨"sbbq", 19954, [], true, [0x81], .digit 3, .cls .c64, 4⟩,
  ⟨"sbbq", 19969, [], true, [0x81], .digit 3, .mem, 4⟩,
  ⟨"andq", 4836, [], true, [0x81], .digit 4, .cls .c64, 4⟩,
  ⟨"andq", 4851, [], true, [0x81], .digit 4, .mem, 4⟩,
  ⟨"subq", 22858, [], true, [0x81], .digit 5, .cls .c64, 4⟩,
  ⟨"subq", 22873, [], true, [0x81], .digit 5, .mem, 4⟩,
  ⟨"xorq", 24401, [], true, [0x81], .digit 6, .cls .c64, 4⟩,
  ⟨"xorq", 24416, [], true, [0x81], .digit 6, .mem, 4⟩,
  ⟨"cmpq", 6626, [], true, [0x81], .digit 7, .cls .c64, 4⟩,
  ⟨"cmpq", 6641, [], true, [0x81], .digit 7, .mem, 4⟩,
  ⟨"addq", 4171, [], true, [0x83], .digit 0, .cls .c64, 1⟩,
  ⟨"addq", 4186, [], true, [0x83], .digit 0, .mem, 1⟩,
  ⟨"orq", 12967, [], true, [0x83], .digit 1, .cls .c64, 1⟩,
  ⟨"orq", 12982, [], true, [0x83], .digit 1, .mem, 1⟩,
  ⟨"adcq", 3670, [], true, [0x83], .digit 2, .cls .c64, 1⟩,
  ⟨"adcq", 3685, [], true, [0x83], .digit 2, .mem, 1⟩,
  ⟨"sbbq", 19924, [], true, [0x83], .digit 3, .cls .c64, 1⟩,
  ⟨"sbbq", 19939, [], true, [0x83], .digit 3, .mem, 1⟩,
  ⟨"andq", 4806, [], true, [0x83], .digit 4, .cls .c64, 1⟩,
  ⟨"andq", 4821, [], true, [0x83], .digit 4, .mem, 1⟩,
  ⟨"subq", 22828, [], true, [0x83], .digit 5, .cls .c64, 1⟩,
  ⟨"subq", 22843, [], true, [0x83], .digit 5, .mem, 1⟩,
  ⟨"xorq", 24371, [], true, [0x83], .digit 6, .cls .c64, 1⟩,
  ⟨"xorq", 24386, [], true, [0x83], .digit 6, .mem, 1⟩,
  ⟨"cmpq", 6596, [], true, [0x83], .digit 7, .cls .c64, 1⟩,
  ⟨"cmpq", 6611, [], true, [0x83], .digit 7, .mem, 1⟩,
  ⟨"testq", 23244, [], true, [0x85], .cls .c64, .cls .c64, 0⟩,
  ⟨"testq", 23258, [], true, [0x85], .cls .c64, .mem, 0⟩,
  ⟨"xchgq", 23928, [], true, [0x87], .cls .c64, .cls .c64, 0⟩,
  ⟨"xchgq", 23942, [], true, [0x87], .cls .c64, .mem, 0⟩,
  ⟨"xchgq", 23967, [], true, [0x87], .cls .c64, .mem, 0⟩,
  ⟨"movq", 11348, [], true, [0x89], .cls .c64, .mem, 0⟩,
  ⟨"movq", 11320, [], true, [0x8B], .cls .c64, .cls .c64, 0⟩,
  ⟨"movq", 11334, [], true, [0x8B], .cls .c64, .mem, 0⟩,
  ⟨"leaq", 10187, [], true, [0x8D], .cls .c64, .mem, 0⟩,
  ⟨"rolq", 18210, [], true, [0xC1], .digit 0, .cls .c64, 1⟩,
  ⟨"rolq", 18225, [], true, [0xC1], .digit 0, .mem, 1⟩,
  ⟨"rorq", 18568, [], true, [0xC1], .digit 1, .cls .c64, 1⟩,
  ⟨"rorq", 18583, [], true, [0xC1], .digit 1, .mem, 1⟩,
  ⟨"rclq", 17405, [], true, [0xC1], .digit 2, .cls .c64, 1⟩,
  ⟨"rclq", 17420, [], true, [0xC1], .digit 2, .mem, 1⟩,
  ⟨"rcrq", 17829, [], true, [0xC1], .digit 3, .cls .c64, 1⟩,
  ⟨"rcrq", 17844, [], true, [0xC1], .digit 3, .mem, 1⟩,
  ⟨"salq", 19144, [], true, [0xC1], .digit 4, .cls .c64, 1⟩,
  ⟨"shlq", 21481, [], true, [0xC1], .digit 4, .cls .c64, 1⟩,
  ⟨"salq", 19159, [], true, [0xC1], .digit 4, .mem, 1⟩,
  ⟨"shlq", 21496, [], true, [0xC1], .digit 4, .mem, 1⟩,
  ⟨"shrq", 22035, [], true, [0xC1], .digit 5, .cls .c64, 1⟩,
  ⟨"shrq", 22050, [], true, [0xC1], .digit 5, .mem, 1⟩,
  ⟨"sarq", 19502, [], true, [0xC1], .digit 7, .cls .c64, 1⟩,
  ⟨"sarq", 19517, [], true, [0xC1], .digit 7, .mem, 1⟩,
  ⟨"movq", 11362, [], true, [0xC7], .digit 0, .cls .c64, 4⟩,
  ⟨"movq", 11377, [], true, [0xC7], .digit 0, .mem, 4⟩,
  ⟨"rolq", 18240, [], true, [0xD1], .digit 0, .cls .c64, 0⟩,
  ⟨"rolq", 18254, [], true, [0xD1], .digit 0, .mem, 0⟩,
  ⟨"rorq", 18598, [], true, [0xD1], .digit 1, .cls .c64, 0⟩,
  ⟨"rorq", 18612, [], true, [0xD1], .digit 1, .mem, 0⟩,
  ⟨"rclq", 17435, [], true, [0xD1], .digit 2, .cls .c64, 0⟩,
  ⟨"rclq", 17449, [], true, [0xD1], .digit 2, .mem, 0⟩,
  ⟨"rcrq", 17859, [], true, [0xD1], .digit 3, .cls .c64, 0⟩,
  ⟨"rcrq", 17873, [], true, [0xD1], .digit 3, .mem, 0⟩,
  ⟨"salq", 19174, [], true, [0xD1], .digit 4, .cls .c64, 0⟩,
  ⟨"shlq", 21511, [], true, [0xD1], .digit 4, .cls .c64, 0⟩,
  ⟨"salq", 19188, [], true, [0xD1], .digit 4, .mem, 0⟩,
  ⟨"shlq", 21525, [], true, [0xD1], .digit 4, .mem, 0⟩,
  ⟨"shrq", 22065, [], true, [0xD1], .digit 5, .cls .c64, 0⟩,
  ⟨"shrq", 22079, [], true, [0xD1], .digit 5, .mem, 0⟩,
  ⟨"sarq", 19532, [], true, [0xD1], .digit 7, .cls .c64, 0⟩,
  ⟨"sarq", 19546, [], true, [0xD1], .digit 7, .mem, 0⟩,
  ⟨"rolq", 18268, [], true, [0xD3], .digit 0, .cls .c64, 0⟩,
  ⟨"rolq", 18282, [], true, [0xD3], .digit 0, .mem, 0⟩,
  ⟨"rorq", 18626, [], true, [0xD3], .digit 1, .cls .c64, 0⟩,
  ⟨"rorq", 18640, [], true, [0xD3], .digit 1, .mem, 0⟩,
  ⟨"rclq", 17463, [], true, [0xD3], .digit 2, .cls .c64, 0⟩,
  ⟨"rclq", 17477, [], true, [0xD3], .digit 2, .mem, 0⟩,
  ⟨"rcrq", 17887, [], true, [0xD3], .digit 3, .cls .c64, 0⟩,
  ⟨"rcrq", 17901, [], true, [0xD3], .digit 3, .mem, 0⟩,
  ⟨"salq", 19202, [], true, [0xD3], .digit 4, .cls .c64, 0⟩,
  ⟨"shlq", 21539, [], true, [0xD3], .digit 4, .cls .c64, 0⟩,
  ⟨"salq", 19216, [], true, [0xD3], .digit 4, .mem, 0⟩,
  ⟨"shlq", 21553, [], true, [0xD3], .digit 4, .mem, 0⟩,
  ⟨"shrq", 22093, [], true, [0xD3], .digit 5, .cls .c64, 0⟩,
  ⟨"shrq", 22107, [], true, [0xD3], .digit 5, .mem, 0⟩,
  ⟨"sarq", 19560, [], true, [0xD3], .digit 7, .cls .c64, 0⟩,
  ⟨"sarq", 19574, [], true, [0xD3], .digit 7, .mem, 0⟩,
  ⟨"testq", 23272, [], true, [0xF7], .digit 0, .cls .c64, 4⟩,
  ⟨"testq", 23287, [], true, [0xF7], .digit 0, .mem, 4⟩,
  ⟨"notq", 12599, [], true, [0xF7], .digit 2, .cls .c64, 0⟩,
  ⟨"notq", 12613, [], true, [0xF7], .digit 2, .mem, 0⟩,
  ⟨"negq", 12466, [], true, [0xF7], .digit 3, .cls .c64, 0⟩,
  ⟨"negq", 12480, [], true, [0xF7], .digit 3, .mem, 0⟩,
  ⟨"mulq", 12276, [], true, [0xF7], .digit 4, .cls .c64, 0⟩,
  ⟨"mulq", 12290, [], true, [0xF7], .digit 4, .mem, 0⟩,
  ⟨"imulq1", 8886, [], true, [0xF7], .digit 5, .cls .c64, 0⟩,
  ⟨"imulq1", 8900, [], true, [0xF7], .digit 5, .mem, 0⟩,
  ⟨"divq", 8281, [], true, [0xF7], .digit 6, .cls .c64, 0⟩,
  ⟨"divq", 8295, [], true, [0xF7], .digit 6, .mem, 0⟩,
  ⟨"idivq", 8608, [], true, [0xF7], .digit 7, .cls .c64, 0⟩,
  ⟨"idivq", 8622, [], true, [0xF7], .digit 7, .mem, 0⟩,
  ⟨"incq", 9161, [], true, [0xFF], .digit 0, .cls .c64, 0⟩,
  ⟨"incq", 9175, [], true, [0xFF], .digit 0, .mem, 0⟩,
  ⟨"decq", 8093, [], true, [0xFF], .digit 1, .cls .c64, 0⟩,
  ⟨"decq", 8107, [], true, [0xFF], .digit 1, .mem, 0⟩,
  ⟨"btq", 5631, [], true, [0x0F, 0xA3], .cls .c64, .cls .c64, 0⟩,
  ⟨"btq", 5646, [], true, [0x0F, 0xA3], .cls .c64, .mem, 0⟩,
  ⟨"shldq", 21261, [], true, [0x0F, 0xA4], .cls .c64, .cls .c64, 1⟩,
  ⟨"shldq", 21277, [], true, [0x0F, 0xA4], .cls .c64, .mem, 1⟩,
  ⟨"shldq", 21293, [], true, [0x0F, 0xA5], .cls .c64, .cls .c64, 0⟩,
  ⟨"shldq", 21308, [], true, [0x0F, 0xA5], .cls .c64, .mem, 0⟩,
  ⟨"btsq", 5955, [], true, [0x0F, 0xAB], .cls .c64, .cls .c64, 0⟩,
  ⟨"btsq", 5970, [], true, [0x0F, 0xAB], .cls .c64, .mem, 0⟩,
  ⟨"shrdq", 21815, [], true, [0x0F, 0xAC], .cls .c64, .cls .c64, 1⟩,
  ⟨"shrdq", 21831, [], true, [0x0F, 0xAC], .cls .c64, .mem, 1⟩,
  ⟨"shrdq", 21847, [], true, [0x0F, 0xAD], .cls .c64, .cls .c64, 0⟩,
  ⟨"shrdq", 21862, [], true, [0x0F, 0xAD], .cls .c64, .mem, 0⟩,
  ⟨"imulq2", 8916, [], true, [0x0F, 0xAF], .cls .c64, .cls .c64, 0⟩,
  ⟨"imulq2", 8931, [], true, [0x0F, 0xAF], .cls .c64, .mem, 0⟩,
  ⟨"cmpxchgq", 6938, [], true, [0x0F, 0xB1], .cls .c64, .cls .c64, 0⟩,
  ⟨"cmpxchgq", 6953, [], true, [0x0F, 0xB1], .cls .c64, .mem, 0⟩,
  ⟨"btrq", 5759, [], true, [0x0F, 0xB3], .cls .c64, .cls .c64, 0⟩,
  ⟨"btrq", 5774, [], true, [0x0F, 0xB3], .cls .c64, .mem, 0⟩,
  ⟨"movzbq", 11982, [], true, [0x0F, 0xB6], .cls .c64, .cls .c8, 0⟩,
  ⟨"movzbq", 11997, [], true, [0x0F, 0xB6], .cls .c64, .mem, 0⟩,
  ⟨"movzwq", 12080, [], true, [0x0F, 0xB7], .cls .c64, .cls .c16, 0⟩,
  ⟨"movzwq", 12095, [], true, [0x0F, 0xB7], .cls .c64, .mem, 0⟩,
  ⟨"btq", 5661, [], true, [0x0F, 0xBA], .digit 4, .cls .c64, 1⟩,
  ⟨"btq", 5677, [], true, [0x0F, 0xBA], .digit 4, .mem, 1⟩,
  ⟨"btsq", 5985, [], true, [0x0F, 0xBA], .digit 5, .cls .c64, 1⟩,
  ⟨"btsq", 6001, [], true, [0x0F, 0xBA], .digit 5, .mem, 1⟩,
  ⟨"btrq", 5789, [], true, [0x0F, 0xBA], .digit 6, .cls .c64, 1⟩,
  ⟨"btrq", 5805, [], true, [0x0F, 0xBA], .digit 6, .mem, 1⟩,
  ⟨"btcq", 5465, [], true, [0x0F, 0xBA], .digit 7, .cls .c64, 1⟩,
  ⟨"btcq", 5481, [], true, [0x0F, 0xBA], .digit 7, .mem, 1⟩]

/-- Part of `forms`. -/
def forms3 : List Form := [
  ⟨"btcq", 5435, [], true, [0x0F, 0xBB], .cls .c64, .cls .c64, 0⟩,
  ⟨"btcq", 5450, [], true, [0x0F, 0xBB], .cls .c64, .mem, 0⟩,
  ⟨"bsfq", 5181, [], true, [0x0F, 0xBC], .cls .c64, .cls .c64, 0⟩,
  ⟨"bsfq", 5196, [], true, [0x0F, 0xBC], .cls .c64, .mem, 0⟩,
  ⟨"bsrq", 5279, [], true, [0x0F, 0xBD], .cls .c64, .cls .c64, 0⟩,
  ⟨"bsrq", 5294, [], true, [0x0F, 0xBD], .cls .c64, .mem, 0⟩,
  ⟨"movsbq", 11506, [], true, [0x0F, 0xBE], .cls .c64, .cls .c8, 0⟩,
  ⟨"movsbq", 11521, [], true, [0x0F, 0xBE], .cls .c64, .mem, 0⟩,
  ⟨"movswq", 11745, [], true, [0x0F, 0xBF], .cls .c64, .cls .c16, 0⟩,
  ⟨"movswq", 11760, [], true, [0x0F, 0xBF], .cls .c64, .mem, 0⟩,
  ⟨"xaddq", 23752, [], true, [0x0F, 0xC1], .cls .c64, .cls .c64, 0⟩,
  ⟨"xaddq", 23767, [], true, [0x0F, 0xC1], .cls .c64, .mem, 0⟩,
  ⟨"movnti", 11256, [], true, [0x0F, 0xC3], .cls .c64, .mem, 0⟩,
  ⟨"addw", 4342, [0x66], false, [0x01], .cls .c16, .mem, 0⟩,
  ⟨"addw", 4312, [0x66], false, [0x03], .cls .c16, .cls .c16, 0⟩,
  ⟨"addw", 4327, [0x66], false, [0x03], .cls .c16, .mem, 0⟩,
  ⟨"orw", 13070, [0x66], false, [0x09], .cls .c16, .mem, 0⟩,
  ⟨"orw", 13040, [0x66], false, [0x0B], .cls .c16, .cls .c16, 0⟩,
  ⟨"orw", 13055, [0x66], false, [0x0B], .cls .c16, .mem, 0⟩,
  ⟨"adcw", 3773, [0x66], false, [0x11], .cls .c16, .mem, 0⟩,
  ⟨"adcw", 3743, [0x66], false, [0x13], .cls .c16, .cls .c16, 0⟩,
  ⟨"adcw", 3758, [0x66], false, [0x13], .cls .c16, .mem, 0⟩,
  ⟨"sbbw", 20027, [0x66], false, [0x19], .cls .c16, .mem, 0⟩,
  ⟨"sbbw", 19997, [0x66], false, [0x1B], .cls .c16, .cls .c16, 0⟩,
  ⟨"sbbw", 20012, [0x66], false, [0x1B], .cls .c16, .mem, 0⟩,
  ⟨"andw", 4909, [0x66], false, [0x21], .cls .c16, .mem, 0⟩,
  ⟨"andw", 4879, [0x66], false, [0x23], .cls .c16, .cls .c16, 0⟩,
  ⟨"andw", 4894, [0x66], false, [0x23], .cls .c16, .mem, 0⟩,
  ⟨"subw", 22999, [0x66], false, [0x29], .cls .c16, .mem, 0⟩,
  ⟨"subw", 22969, [0x66], false, [0x2B], .cls .c16, .cls .c16, 0⟩,
  ⟨"subw", 22984, [0x66], false, [0x2B], .cls .c16, .mem, 0⟩,
  ⟨"xorw", 24474, [0x66], false, [0x31], .cls .c16, .mem, 0⟩,
  ⟨"xorw", 24444, [0x66], false, [0x33], .cls .c16, .cls .c16, 0⟩,
  ⟨"xorw", 24459, [0x66], false, [0x33], .cls .c16, .mem, 0⟩,
  ⟨"cmpw", 6782, [0x66], false, [0x39], .cls .c16, .mem, 0⟩,
  ⟨"cmpw", 6752, [0x66], false, [0x3B], .cls .c16, .cls .c16, 0⟩,
  ⟨"cmpw", 6767, [0x66], false, [0x3B], .cls .c16, .mem, 0⟩,
  ⟨"imulw", 8980, [0x66], false, [0x69], .cls .c16, .cls .c16, 2⟩,
  ⟨"imulw", 8996, [0x66], false, [0x69], .cls .c16, .mem, 2⟩,
  ⟨"imulw", 8948, [0x66], false, [0x6B], .cls .c16, .cls .c16, 1⟩,
  ⟨"imulw", 8964, [0x66], false, [0x6B], .cls .c16, .mem, 1⟩,
  ⟨"addw", 4389, [0x66], false, [0x81], .digit 0, .cls .c16, 2⟩,
  ⟨"addw", 4405, [0x66], false, [0x81], .digit 0, .mem, 2⟩,
  ⟨"orw", 13117, [0x66], false, [0x81], .digit 1, .cls .c16, 2⟩,
  ⟨"orw", 13133, [0x66], false, [0x81], .digit 1, .mem, 2⟩,
  ⟨"adcw", 3820, [0x66], false, [0x81], .digit 2, .cls .c16, 2⟩,
  ⟨"adcw", 3836, [0x66], false, [0x81], .digit 2, .mem, 2⟩,
  ⟨"sbbw", 20074, [0x66], false, [0x81], .digit 3, .cls .c16, 2⟩,
  ⟨"sbbw", 20090, [0x66], false, [0x81], .digit 3, .mem, 2⟩,
  ⟨"andw", 4956, [0x66], false, [0x81], .digit 4, .cls .c16, 2⟩,
  ⟨"andw", 4972, [0x66], false, [0x81], .digit 4, .mem, 2⟩,
  ⟨"subw", 23046, [0x66], false, [0x81], .digit 5, .cls .c16, 2⟩,
  ⟨"subw", 23062, [0x66], false, [0x81], .digit 5, .mem, 2⟩,
  ⟨"xorw", 24521, [0x66], false, [0x81], .digit 6, .cls .c16, 2⟩,
  ⟨"xorw", 24537, [0x66], false, [0x81], .digit 6, .mem, 2⟩,
  ⟨"cmpw", 6829, [0x66], false, [0x81], .digit 7, .cls .c16, 2⟩,
  ⟨"cmpw", 6845, [0x66], false, [0x81], .digit 7, .mem, 2⟩,
  ⟨"addw", 4357, [0x66], false, [0x83], .digit 0, .cls .c16, 1⟩,
  ⟨"addw", 4373, [0x66], false, [0x83], .digit 0, .mem, 1⟩,
  ⟨"orw", 13085, [0x66], false, [0x83], .digit 1, .cls .c16, 1⟩,
  ⟨"orw", 13101, [0x66], false, [0x83], .digit 1, .mem, 1⟩,
  ⟨"adcw", 3788, [0x66], false, [0x83], .digit 2, .cls .c16, 1⟩,
  ⟨"adcw", 3804, [0x66], false, [0x83], .digit 2, .mem, 1⟩,
  ⟨"sbbw", 20042, [0x66], false, [0x83], .digit 3, .cls .c16, 1⟩,
  ⟨"sbbw", 20058, [0x66], false, [0x83], .digit 3, .mem, 1⟩,
  ⟨"andw", 4924, [0x66], false, [0x83], .digit 4, .cls .c16, 1⟩,
  ⟨"andw", 4940, [0x66], false, [0x83], .digit 4, .mem, 1⟩,
  ⟨"subw", 23014, [0x66], false, [0x83], .digit 5, .cls .c16, 1⟩,
  ⟨"subw", 23030, [0x66], false, [0x83], .digit 5, .mem, 1⟩,
  ⟨"xorw", 24489, [0x66], false, [0x83], .digit 6, .cls .c16, 1⟩,
  ⟨"xorw", 24505, [0x66], false, [0x83], .digit 6, .mem, 1⟩,
  ⟨"cmpw", 6797, [0x66], false, [0x83], .digit 7, .cls .c16, 1⟩,
  ⟨"cmpw", 6813, [0x66], false, [0x83], .digit 7, .mem, 1⟩,
  ⟨"testw", 23315, [0x66], false, [0x85], .cls .c16, .cls .c16, 0⟩,
  ⟨"testw", 23330, [0x66], false, [0x85], .cls .c16, .mem, 0⟩,
  ⟨"xchgw", 23994, [0x66], false, [0x87], .cls .c16, .cls .c16, 0⟩,
  ⟨"xchgw", 24009, [0x66], false, [0x87], .cls .c16, .mem, 0⟩,
  ⟨"xchgw", 24036, [0x66], false, [0x87], .cls .c16, .mem, 0⟩,
  ⟨"movw", 11917, [0x66], false, [0x89], .cls .c16, .mem, 0⟩,
  ⟨"movw", 11887, [0x66], false, [0x8B], .cls .c16, .cls .c16, 0⟩,
  ⟨"movw", 11902, [0x66], false, [0x8B], .cls .c16, .mem, 0⟩,
  ⟨"leaw", 10226, [0x66], false, [0x8D], .cls .c16, .mem, 0⟩,
  ⟨"popw", 15866, [0x66], false, [0x8F], .digit 0, .mem, 0⟩,
  ⟨"rolw", 18298, [0x66], false, [0xC1], .digit 0, .cls .c16, 1⟩,
  ⟨"rolw", 18314, [0x66], false, [0xC1], .digit 0, .mem, 1⟩,
  ⟨"rorw", 18656, [0x66], false, [0xC1], .digit 1, .cls .c16, 1⟩,
  ⟨"rorw", 18672, [0x66], false, [0xC1], .digit 1, .mem, 1⟩,
  ⟨"rclw", 17493, [0x66], false, [0xC1], .digit 2, .cls .c16, 1⟩,
  ⟨"rclw", 17509, [0x66], false, [0xC1], .digit 2, .mem, 1⟩,
  ⟨"rcrw", 17917, [0x66], false, [0xC1], .digit 3, .cls .c16, 1⟩,
  ⟨"rcrw", 17933, [0x66], false, [0xC1], .digit 3, .mem, 1⟩,
  ⟨"salw", 19232, [0x66], false, [0xC1], .digit 4, .cls .c16, 1⟩,
  ⟨"shlw", 21569, [0x66], false, [0xC1], .digit 4, .cls .c16, 1⟩,
  ⟨"salw", 19248, [0x66], false, [0xC1], .digit 4, .mem, 1⟩,
  ⟨"shlw", 21585, [0x66], false, [0xC1], .digit 4, .mem, 1⟩,
  ⟨"shrw", 22123, [0x66], false, [0xC1], .digit 5, .cls .c16, 1⟩,
  ⟨"shrw", 22139, [0x66], false, [0xC1], .digit 5, .mem, 1⟩,
  ⟨"sarw", 19590, [0x66], false, [0xC1], .digit 7, .cls .c16, 1⟩,
  ⟨"sarw", 19606, [0x66], false, [0xC1], .digit 7, .mem, 1⟩,
  ⟨"movw", 11932, [0x66], false, [0xC7], .digit 0, .mem, 2⟩,
  ⟨"rolw", 18330, [0x66], false, [0xD1], .digit 0, .cls .c16, 0⟩,
  ⟨"rolw", 18345, [0x66], false, [0xD1], .digit 0, .mem, 0⟩,
  ⟨"rorw", 18688, [0x66], false, [0xD1], .digit 1, .cls .c16, 0⟩,
  ⟨"rorw", 18703, [0x66], false, [0xD1], .digit 1, .mem, 0⟩,
  ⟨"rclw", 17525, [0x66], false, [0xD1], .digit 2, .cls .c16, 0⟩,
  ⟨"rclw", 17540, [0x66], false, [0xD1], .digit 2, .mem, 0⟩,
  ⟨"rcrw", 17949, [0x66], false, [0xD1], .digit 3, .cls .c16, 0⟩,
  ⟨"rcrw", 17964, [0x66], false, [0xD1], .digit 3, .mem, 0⟩,
  ⟨"salw", 19264, [0x66], false, [0xD1], .digit 4, .cls .c16, 0⟩,
  ⟨"shlw", 21601, [0x66], false, [0xD1], .digit 4, .cls .c16, 0⟩,
  ⟨"salw", 19279, [0x66], false, [0xD1], .digit 4, .mem, 0⟩,
  ⟨"shlw", 21616, [0x66], false, [0xD1], .digit 4, .mem, 0⟩,
  ⟨"shrw", 22155, [0x66], false, [0xD1], .digit 5, .cls .c16, 0⟩,
  ⟨"shrw", 22170, [0x66], false, [0xD1], .digit 5, .mem, 0⟩,
  ⟨"sarw", 19622, [0x66], false, [0xD1], .digit 7, .cls .c16, 0⟩,
  ⟨"sarw", 19637, [0x66], false, [0xD1], .digit 7, .mem, 0⟩,
  ⟨"rolw", 18360, [0x66], false, [0xD3], .digit 0, .cls .c16, 0⟩,
  ⟨"rolw", 18375, [0x66], false, [0xD3], .digit 0, .mem, 0⟩,
  ⟨"rorw", 18718, [0x66], false, [0xD3], .digit 1, .cls .c16, 0⟩,
  ⟨"rorw", 18733, [0x66], false, [0xD3], .digit 1, .mem, 0⟩,
  ⟨"rclw", 17555, [0x66], false, [0xD3], .digit 2, .cls .c16, 0⟩,
  ⟨"rclw", 17570, [0x66], false, [0xD3], .digit 2, .mem, 0⟩,
  ⟨"rcrw", 17979, [0x66], false, [0xD3], .digit 3, .cls .c16, 0⟩,
  ⟨"rcrw", 17994, [0x66], false, [0xD3], .digit 3, .mem, 0⟩,
  ⟨"salw", 19294, [0x66], false, [0xD3], .digit 4, .cls .c16, 0⟩,
  ⟨"shlw", 21631, [0x66], false, [0xD3], .digit 4, .cls .c16, 0⟩,
  ⟨"salw", 19309, [0x66], false, [0xD3], .digit 4, .mem, 0⟩,
  ⟨"shlw", 21646, [0x66], false, [0xD3], .digit 4, .mem, 0⟩,
  ⟨"shrw", 22185, [0x66], false, [0xD3], .digit 5, .cls .c16, 0⟩,
  ⟨"shrw", 22200, [0x66], false, [0xD3], .digit 5, .mem, 0⟩,
  ⟨"sarw", 19652, [0x66], false, [0xD3], .digit 7, .cls .c16, 0⟩,
  ⟨"sarw", 19667, [0x66], false, [0xD3], .digit 7, .mem, 0⟩,
  ⟨"testw", 23345, [0x66], false, [0xF7], .digit 0, .cls .c16, 2⟩,
  ⟨"testw", 23361, [0x66], false, [0xF7], .digit 0, .mem, 2⟩,
  ⟨"notw", 12629, [0x66], false, [0xF7], .digit 2, .cls .c16, 0⟩,
  ⟨"notw", 12644, [0x66], false, [0xF7], .digit 2, .mem, 0⟩,
  ⟨"negw", 12496, [0x66], false, [0xF7], .digit 3, .cls .c16, 0⟩,
  ⟨"negw", 12511, [0x66], false, [0xF7], .digit 3, .mem, 0⟩,
  ⟨"mulw", 12374, [0x66], false, [0xF7], .digit 4, .cls .c16, 0⟩,
  ⟨"mulw", 12389, [0x66], false, [0xF7], .digit 4, .mem, 0⟩,
  ⟨"imulw1", 9014, [0x66], false, [0xF7], .digit 5, .cls .c16, 0⟩,
  ⟨"imulw1", 9029, [0x66], false, [0xF7], .digit 5, .mem, 0⟩,
  ⟨"divw", 8379, [0x66], false, [0xF7], .digit 6, .cls .c16, 0⟩,
  ⟨"divw", 8394, [0x66], false, [0xF7], .digit 6, .mem, 0⟩,
  ⟨"idivw", 8638, [0x66], false, [0xF7], .digit 7, .cls .c16, 0⟩,
  ⟨"idivw", 8653, [0x66], false, [0xF7], .digit 7, .mem, 0⟩,
  ⟨"incw", 9191, [0x66], false, [0xFF], .digit 0, .cls .c16, 0⟩,
  ⟨"incw", 9206, [0x66], false, [0xFF], .digit 0, .mem, 0⟩,
  ⟨"decw", 8123, [0x66], false, [0xFF], .digit 1, .cls .c16, 0⟩,
  ⟨"decw", 8138, [0x66], false, [0xFF], .digit 1, .mem, 0⟩,
  ⟨"pushw", 17178, [0x66], false, [0xFF], .digit 6, .mem, 0⟩,
  ⟨"str", 22488, [0x66], false, [0x0F, 0x00], .digit 1, .cls .c16, 0⟩,
  ⟨"str", 22504, [0x66], false, [0x0F, 0x00], .digit 1, .mem, 0⟩,
  ⟨"movupd", 11777, [0x66], false, [0x0F, 0x10], .cls .cx, .cls .cx, 0⟩,
  ⟨"movupd", 11793, [0x66], false, [0x0F, 0x10], .cls .cx, .mem, 0⟩,
  ⟨"movupd", 11809, [0x66], false, [0x0F, 0x11], .cls .cx, .mem, 0⟩,
  ⟨"movlpd", 11119, [0x66], false, [0x0F, 0x12], .cls .cx, .mem, 0⟩,
  ⟨"movlpd", 11103, [0x66], false, [0x0F, 0x13], .cls .cx, .mem, 0⟩,
  ⟨"unpcklpd", 23534, [0x66], false, [0x0F, 0x14], .cls .cx, .cls .cx, 0⟩,
  ⟨"unpcklpd", 23550, [0x66], false, [0x0F, 0x14], .cls .cx, .mem, 0⟩,
  ⟨"unpckhpd", 23468, [0x66], false, [0x0F, 0x15], .cls .cx, .cls .cx, 0⟩,
  ⟨"unpckhpd", 23484, [0x66], false, [0x0F, 0x15], .cls .cx, .mem, 0⟩,
  ⟨"movhpd", 10965, [0x66], false, [0x0F, 0x16], .cls .cx, .mem, 0⟩,
  ⟨"movhpd", 10949, [0x66], false, [0x0F, 0x17], .cls .cx, .mem, 0⟩,
  ⟨"movapd", 10598, [0x66], false, [0x0F, 0x28], .cls .cx, .cls .cx, 0⟩,
  ⟨"movapd", 10614, [0x66], false, [0x0F, 0x28], .cls .cx, .mem, 0⟩,
  ⟨"movapd", 10630, [0x66], false, [0x0F, 0x29], .cls .cx, .mem, 0⟩,
  ⟨"movntpd", 11273, [0x66], false, [0x0F, 0x2B], .cls .cx, .mem, 0⟩,
  ⟨"ucomisd", 23390, [0x66], false, [0x0F, 0x2E], .cls .cx, .cls .cx, 0⟩,
  ⟨"ucomisd", 23406, [0x66], false, [0x0F, 0x2E], .cls .cx, .mem, 0⟩,
  ⟨"comisd", 7004, [0x66], false, [0x0F, 0x2F], .cls .cx, .cls .cx, 0⟩,
  ⟨"comisd", 7020, [0x66], false, [0x0F, 0x2F], .cls .cx, .mem, 0⟩,
  ⟨"pminsb", 14832, [0x66], false, [0x0F, 0x38], .cls .cx, .cls .cx, 0⟩,
  ⟨"pminsb", 14848, [0x66], false, [0x0F, 0x38], .cls .cx, .mem, 0⟩,
  ⟨"movmskpd", 11169, [0x66], false, [0x0F, 0x50], .cls .c64, .cls .cx, 0⟩,
  ⟨"sqrtpd", 22304, [0x66], false, [0x0F, 0x51], .cls .cx, .cls .cx, 0⟩,
  ⟨"sqrtpd", 22320, [0x66], false, [0x0F, 0x51], .cls .cx, .mem, 0⟩,
  ⟨"andpd", 4698, [0x66], false, [0x0F, 0x54], .cls .cx, .cls .cx, 0⟩,
  ⟨"andpd", 4714, [0x66], false, [0x0F, 0x54], .cls .cx, .mem, 0⟩,
  ⟨"andnpd", 4632, [0x66], false, [0x0F, 0x55], .cls .cx, .cls .cx, 0⟩,
  ⟨"andnpd", 4648, [0x66], false, [0x0F, 0x55], .cls .cx, .mem, 0⟩,
  ⟨"orpd", 12859, [0x66], false, [0x0F, 0x56], .cls .cx, .cls .cx, 0⟩,
  ⟨"orpd", 12875, [0x66], false, [0x0F, 0x56], .cls .cx, .mem, 0⟩,
  ⟨"xorpd", 24263, [0x66], false, [0x0F, 0x57], .cls .cx, .cls .cx, 0⟩,
  ⟨"xorpd", 24279, [0x66], false, [0x0F, 0x57], .cls .cx, .mem, 0⟩,
  ⟨"addpd", 4063, [0x66], false, [0x0F, 0x58], .cls .cx, .cls .cx, 0⟩,
  ⟨"addpd", 4079, [0x66], false, [0x0F, 0x58], .cls .cx, .mem, 0⟩,
  ⟨"mulpd", 12210, [0x66], false, [0x0F, 0x59], .cls .cx, .cls .cx, 0⟩,
  ⟨"mulpd", 12226, [0x66], false, [0x0F, 0x59], .cls .cx, .mem, 0⟩,
  ⟨"cvtpd2ps", 7374, [0x66], false, [0x0F, 0x5A], .cls .cx, .cls .cx, 0⟩,
  ⟨"cvtpd2ps", 7390, [0x66], false, [0x0F, 0x5A], .cls .cx, .mem, 0⟩,
  ⟨"cvtps2dq", 7408, [0x66], false, [0x0F, 0x5B], .cls .cx, .cls .cx, 0⟩,
  ⟨"cvtps2dq", 7424, [0x66], false, [0x0F, 0x5B], .cls .cx, .mem, 0⟩,
  ⟨"subpd", 22720, [0x66], false, [0x0F, 0x5C], .cls .cx, .cls .cx, 0⟩,
  ⟨"subpd", 22736, [0x66], false, [0x0F, 0x5C], .cls .cx, .mem, 0⟩,
  ⟨"minpd", 10464, [0x66], false, [0x0F, 0x5D], .cls .cx, .cls .cx, 0⟩,
  ⟨"minpd", 10480, [0x66], false, [0x0F, 0x5D], .cls .cx, .mem, 0⟩,
  ⟨"divpd", 8215, [0x66], false, [0x0F, 0x5E], .cls .cx, .cls .cx, 0⟩,
  ⟨"divpd", 8231, [0x66], false, [0x0F, 0x5E], .cls .cx, .mem, 0⟩,
  ⟨"maxpd", 10317, [0x66], false, [0x0F, 0x5F], .cls .cx, .cls .cx, 0⟩]

/-- Part of `forms`. -/
def forms4 : List Form := [
  ⟨"maxpd", 10333, [0x66], false, [0x0F, 0x5F], .cls .cx, .mem, 0⟩,
  ⟨"punpcklbw", 16949, [0x66], false, [0x0F, 0x60], .cls .cx, .cls .cx, 0⟩,
  ⟨"punpcklbw", 16965, [0x66], false, [0x0F, 0x60], .cls .cx, .mem, 0⟩,
  ⟨"punpcklwd", 17051, [0x66], false, [0x0F, 0x61], .cls .cx, .cls .cx, 0⟩,
  ⟨"punpcklwd", 17067, [0x66], false, [0x0F, 0x61], .cls .cx, .mem, 0⟩,
  ⟨"punpckldq", 16983, [0x66], false, [0x0F, 0x62], .cls .cx, .cls .cx, 0⟩,
  ⟨"punpckldq", 16999, [0x66], false, [0x0F, 0x62], .cls .cx, .mem, 0⟩,
  ⟨"packsswb", 13261, [0x66], false, [0x0F, 0x63], .cls .cx, .cls .cx, 0⟩,
  ⟨"packsswb", 13277, [0x66], false, [0x0F, 0x63], .cls .cx, .mem, 0⟩,
  ⟨"pcmpgtb", 14073, [0x66], false, [0x0F, 0x64], .cls .cx, .cls .cx, 0⟩,
  ⟨"pcmpgtb", 14089, [0x66], false, [0x0F, 0x64], .cls .cx, .mem, 0⟩,
  ⟨"pcmpgtw", 14177, [0x66], false, [0x0F, 0x65], .cls .cx, .cls .cx, 0⟩,
  ⟨"pcmpgtw", 14193, [0x66], false, [0x0F, 0x65], .cls .cx, .mem, 0⟩,
  ⟨"pcmpgtd", 14107, [0x66], false, [0x0F, 0x66], .cls .cx, .cls .cx, 0⟩,
  ⟨"pcmpgtd", 14123, [0x66], false, [0x0F, 0x66], .cls .cx, .mem, 0⟩,
  ⟨"packuswb", 13331, [0x66], false, [0x0F, 0x67], .cls .cx, .cls .cx, 0⟩,
  ⟨"packuswb", 13347, [0x66], false, [0x0F, 0x67], .cls .cx, .mem, 0⟩,
  ⟨"punpckhbw", 16813, [0x66], false, [0x0F, 0x68], .cls .cx, .cls .cx, 0⟩,
  ⟨"punpckhbw", 16829, [0x66], false, [0x0F, 0x68], .cls .cx, .mem, 0⟩,
  ⟨"punpckhwd", 16915, [0x66], false, [0x0F, 0x69], .cls .cx, .cls .cx, 0⟩,
  ⟨"punpckhwd", 16931, [0x66], false, [0x0F, 0x69], .cls .cx, .mem, 0⟩,
  ⟨"punpckhdq", 16847, [0x66], false, [0x0F, 0x6A], .cls .cx, .cls .cx, 0⟩,
  ⟨"punpckhdq", 16863, [0x66], false, [0x0F, 0x6A], .cls .cx, .mem, 0⟩,
  ⟨"packssdw", 13227, [0x66], false, [0x0F, 0x6B], .cls .cx, .cls .cx, 0⟩,
  ⟨"packssdw", 13243, [0x66], false, [0x0F, 0x6B], .cls .cx, .mem, 0⟩,
  ⟨"punpcklqdq", 17017, [0x66], false, [0x0F, 0x6C], .cls .cx, .cls .cx, 0⟩,
  ⟨"punpcklqdq", 17033, [0x66], false, [0x0F, 0x6C], .cls .cx, .mem, 0⟩,
  ⟨"punpckhqdq", 16881, [0x66], false, [0x0F, 0x6D], .cls .cx, .cls .cx, 0⟩,
  ⟨"punpckhqdq", 16897, [0x66], false, [0x0F, 0x6D], .cls .cx, .mem, 0⟩,
  ⟨"movd", 10798, [0x66], false, [0x0F, 0x6E], .cls .cx, .cls .c32, 0⟩,
  ⟨"movd", 10814, [0x66], false, [0x0F, 0x6E], .cls .cx, .mem, 0⟩,
  ⟨"movdqa", 10832, [0x66], false, [0x0F, 0x6F], .cls .cx, .cls .cx, 0⟩,
  ⟨"movdqa", 10848, [0x66], false, [0x0F, 0x6F], .cls .cx, .mem, 0⟩,
  ⟨"pshufd", 15951, [0x66], false, [0x0F, 0x70], .cls .cx, .cls .cx, 1⟩,
  ⟨"pshufd", 15968, [0x66], false, [0x0F, 0x70], .cls .cx, .mem, 1⟩,
  ⟨"psrlw", 16454, [0x66], false, [0x0F, 0x71], .digit 2, .cls .cx, 1⟩,
  ⟨"psraw", 16282, [0x66], false, [0x0F, 0x71], .digit 4, .cls .cx, 1⟩,
  ⟨"psllw", 16180, [0x66], false, [0x0F, 0x71], .digit 6, .cls .cx, 1⟩,
  ⟨"psrld", 16333, [0x66], false, [0x0F, 0x72], .digit 2, .cls .cx, 1⟩,
  ⟨"psrad", 16231, [0x66], false, [0x0F, 0x72], .digit 4, .cls .cx, 1⟩,
  ⟨"pslld", 16059, [0x66], false, [0x0F, 0x72], .digit 6, .cls .cx, 1⟩,
  ⟨"psrlq", 16403, [0x66], false, [0x0F, 0x73], .digit 2, .cls .cx, 1⟩,
  ⟨"psrldq", 16384, [0x66], false, [0x0F, 0x73], .digit 3, .cls .cx, 1⟩,
  ⟨"psllq", 16129, [0x66], false, [0x0F, 0x73], .digit 6, .cls .cx, 1⟩,
  ⟨"pslldq", 16110, [0x66], false, [0x0F, 0x73], .digit 7, .cls .cx, 1⟩,
  ⟨"pcmpeqb", 13859, [0x66], false, [0x0F, 0x74], .cls .cx, .cls .cx, 0⟩,
  ⟨"pcmpeqb", 13875, [0x66], false, [0x0F, 0x74], .cls .cx, .mem, 0⟩,
  ⟨"pcmpeqw", 13963, [0x66], false, [0x0F, 0x75], .cls .cx, .cls .cx, 0⟩,
  ⟨"pcmpeqw", 13979, [0x66], false, [0x0F, 0x75], .cls .cx, .mem, 0⟩,
  ⟨"pcmpeqd", 13893, [0x66], false, [0x0F, 0x76], .cls .cx, .cls .cx, 0⟩,
  ⟨"pcmpeqd", 13909, [0x66], false, [0x0F, 0x76], .cls .cx, .mem, 0⟩,
  ⟨"movd", 10766, [0x66], false, [0x0F, 0x7E], .cls .cx, .cls .c32, 0⟩,
  ⟨"movd", 10782, [0x66], false, [0x0F, 0x7E], .cls .cx, .mem, 0⟩,
  ⟨"movdqa", 10864, [0x66], false, [0x0F, 0x7F], .cls .cx, .mem, 0⟩,
  ⟨"btw", 6087, [0x66], false, [0x0F, 0xA3], .cls .c16, .cls .c16, 0⟩,
  ⟨"btw", 6103, [0x66], false, [0x0F, 0xA3], .cls .c16, .mem, 0⟩,
  ⟨"shldw", 21325, [0x66], false, [0x0F, 0xA4], .cls .c16, .cls .c16, 1⟩,
  ⟨"shldw", 21342, [0x66], false, [0x0F, 0xA4], .cls .c16, .mem, 1⟩,
  ⟨"shldw", 21359, [0x66], false, [0x0F, 0xA5], .cls .c16, .cls .c16, 0⟩,
  ⟨"shldw", 21375, [0x66], false, [0x0F, 0xA5], .cls .c16, .mem, 0⟩,
  ⟨"btsw", 6019, [0x66], false, [0x0F, 0xAB], .cls .c16, .cls .c16, 0⟩,
  ⟨"btsw", 6035, [0x66], false, [0x0F, 0xAB], .cls .c16, .mem, 0⟩,
  ⟨"shrdw", 21879, [0x66], false, [0x0F, 0xAC], .cls .c16, .cls .c16, 1⟩,
  ⟨"shrdw", 21896, [0x66], false, [0x0F, 0xAC], .cls .c16, .mem, 1⟩,
  ⟨"shrdw", 21913, [0x66], false, [0x0F, 0xAD], .cls .c16, .cls .c16, 0⟩,
  ⟨"shrdw", 21929, [0x66], false, [0x0F, 0xAD], .cls .c16, .mem, 0⟩,
  ⟨"imulw2", 9046, [0x66], false, [0x0F, 0xAF], .cls .c16, .cls .c16, 0⟩,
  ⟨"imulw2", 9062, [0x66], false, [0x0F, 0xAF], .cls .c16, .mem, 0⟩,
  ⟨"cmpxchgw", 6970, [0x66], false, [0x0F, 0xB1], .cls .c16, .cls .c16, 0⟩,
  ⟨"cmpxchgw", 6986, [0x66], false, [0x0F, 0xB1], .cls .c16, .mem, 0⟩,
  ⟨"btrw", 5823, [0x66], false, [0x0F, 0xB3], .cls .c16, .cls .c16, 0⟩,
  ⟨"btrw", 5839, [0x66], false, [0x0F, 0xB3], .cls .c16, .mem, 0⟩,
  ⟨"movzbw", 12014, [0x66], false, [0x0F, 0xB6], .cls .c16, .cls .c8, 0⟩,
  ⟨"movzbw", 12030, [0x66], false, [0x0F, 0xB6], .cls .c16, .mem, 0⟩,
  ⟨"btw", 6119, [0x66], false, [0x0F, 0xBA], .digit 4, .cls .c16, 1⟩,
  ⟨"btw", 6136, [0x66], false, [0x0F, 0xBA], .digit 4, .mem, 1⟩,
  ⟨"btsw", 6051, [0x66], false, [0x0F, 0xBA], .digit 5, .cls .c16, 1⟩,
  ⟨"btsw", 6068, [0x66], false, [0x0F, 0xBA], .digit 5, .mem, 1⟩,
  ⟨"btrw", 5855, [0x66], false, [0x0F, 0xBA], .digit 6, .cls .c16, 1⟩,
  ⟨"btrw", 5872, [0x66], false, [0x0F, 0xBA], .digit 6, .mem, 1⟩,
  ⟨"btcw", 5531, [0x66], false, [0x0F, 0xBA], .digit 7, .cls .c16, 1⟩,
  ⟨"btcw", 5548, [0x66], false, [0x0F, 0xBA], .digit 7, .mem, 1⟩,
  ⟨"btcw", 5499, [0x66], false, [0x0F, 0xBB], .cls .c16, .cls .c16, 0⟩,
  ⟨"btcw", 5515, [0x66], false, [0x0F, 0xBB], .cls .c16, .mem, 0⟩,
  ⟨"bsfw", 5213, [0x66], false, [0x0F, 0xBC], .cls .c16, .cls .c16, 0⟩,
  ⟨"bsfw", 5229, [0x66], false, [0x0F, 0xBC], .cls .c16, .mem, 0⟩,
  ⟨"bsrw", 5311, [0x66], false, [0x0F, 0xBD], .cls .c16, .cls .c16, 0⟩,
  ⟨"bsrw", 5327, [0x66], false, [0x0F, 0xBD], .cls .c16, .mem, 0⟩,
  ⟨"movsbw", 11538, [0x66], false, [0x0F, 0xBE], .cls .c16, .cls .c8, 0⟩,
  ⟨"movsbw", 11554, [0x66], false, [0x0F, 0xBE], .cls .c16, .mem, 0⟩,
  ⟨"xaddw", 23784, [0x66], false, [0x0F, 0xC1], .cls .c16, .cls .c16, 0⟩,
  ⟨"xaddw", 23800, [0x66], false, [0x0F, 0xC1], .cls .c16, .mem, 0⟩,
  ⟨"cmppd", 6484, [0x66], false, [0x0F, 0xC2], .cls .cx, .cls .cx, 1⟩,
  ⟨"cmppd", 6501, [0x66], false, [0x0F, 0xC2], .cls .cx, .mem, 1⟩,
  ⟨"pinsrw", 14550, [0x66], false, [0x0F, 0xC4], .cls .cx, .cls .c32, 1⟩,
  ⟨"pinsrw", 14567, [0x66], false, [0x0F, 0xC4], .cls .cx, .mem, 1⟩,
  ⟨"pextrw", 14401, [0x66], false, [0x0F, 0xC5], .cls .c64, .cls .cx, 1⟩,
  ⟨"shufpd", 22217, [0x66], false, [0x0F, 0xC6], .cls .cx, .cls .cx, 1⟩,
  ⟨"shufpd", 22234, [0x66], false, [0x0F, 0xC6], .cls .cx, .mem, 1⟩,
  ⟨"psrlw", 16471, [0x66], false, [0x0F, 0xD1], .cls .cx, .cls .cx, 0⟩,
  ⟨"psrlw", 16487, [0x66], false, [0x0F, 0xD1], .cls .cx, .mem, 0⟩,
  ⟨"psrld", 16350, [0x66], false, [0x0F, 0xD2], .cls .cx, .cls .cx, 0⟩,
  ⟨"psrld", 16366, [0x66], false, [0x0F, 0xD2], .cls .cx, .mem, 0⟩,
  ⟨"psrlq", 16420, [0x66], false, [0x0F, 0xD3], .cls .cx, .cls .cx, 0⟩,
  ⟨"psrlq", 16436, [0x66], false, [0x0F, 0xD3], .cls .cx, .mem, 0⟩,
  ⟨"paddq", 13433, [0x66], false, [0x0F, 0xD4], .cls .cx, .cls .cx, 0⟩,
  ⟨"paddq", 13449, [0x66], false, [0x0F, 0xD4], .cls .cx, .mem, 0⟩,
  ⟨"pmullw", 15632, [0x66], false, [0x0F, 0xD5], .cls .cx, .cls .cx, 0⟩,
  ⟨"pmullw", 15648, [0x66], false, [0x0F, 0xD5], .cls .cx, .mem, 0⟩,
  ⟨"pmovmskb", 15042, [0x66], false, [0x0F, 0xD7], .cls .c64, .cls .cx, 0⟩,
  ⟨"psubusb", 16675, [0x66], false, [0x0F, 0xD8], .cls .cx, .cls .cx, 0⟩,
  ⟨"psubusb", 16691, [0x66], false, [0x0F, 0xD8], .cls .cx, .mem, 0⟩,
  ⟨"psubusw", 16709, [0x66], false, [0x0F, 0xD9], .cls .cx, .cls .cx, 0⟩,
  ⟨"psubusw", 16725, [0x66], false, [0x0F, 0xD9], .cls .cx, .mem, 0⟩,
  ⟨"pminub", 14936, [0x66], false, [0x0F, 0xDA], .cls .cx, .cls .cx, 0⟩,
  ⟨"pminub", 14952, [0x66], false, [0x0F, 0xDA], .cls .cx, .mem, 0⟩,
  ⟨"pand", 13637, [0x66], false, [0x0F, 0xDB], .cls .cx, .cls .cx, 0⟩,
  ⟨"pand", 13653, [0x66], false, [0x0F, 0xDB], .cls .cx, .mem, 0⟩,
  ⟨"paddusb", 13535, [0x66], false, [0x0F, 0xDC], .cls .cx, .cls .cx, 0⟩,
  ⟨"paddusb", 13551, [0x66], false, [0x0F, 0xDC], .cls .cx, .mem, 0⟩,
  ⟨"paddusw", 13569, [0x66], false, [0x0F, 0xDD], .cls .cx, .cls .cx, 0⟩,
  ⟨"paddusw", 13585, [0x66], false, [0x0F, 0xDD], .cls .cx, .mem, 0⟩,
  ⟨"pmaxub", 14726, [0x66], false, [0x0F, 0xDE], .cls .cx, .cls .cx, 0⟩,
  ⟨"pmaxub", 14742, [0x66], false, [0x0F, 0xDE], .cls .cx, .mem, 0⟩,
  ⟨"pandn", 13671, [0x66], false, [0x0F, 0xDF], .cls .cx, .cls .cx, 0⟩,
  ⟨"pandn", 13687, [0x66], false, [0x0F, 0xDF], .cls .cx, .mem, 0⟩,
  ⟨"pavgb", 13717, [0x66], false, [0x0F, 0xE0], .cls .cx, .cls .cx, 0⟩,
  ⟨"pavgb", 13733, [0x66], false, [0x0F, 0xE0], .cls .cx, .mem, 0⟩,
  ⟨"psraw", 16299, [0x66], false, [0x0F, 0xE1], .cls .cx, .cls .cx, 0⟩,
  ⟨"psraw", 16315, [0x66], false, [0x0F, 0xE1], .cls .cx, .mem, 0⟩,
  ⟨"psrad", 16248, [0x66], false, [0x0F, 0xE2], .cls .cx, .cls .cx, 0⟩,
  ⟨"psrad", 16264, [0x66], false, [0x0F, 0xE2], .cls .cx, .mem, 0⟩,
  ⟨"pavgw", 13751, [0x66], false, [0x0F, 0xE3], .cls .cx, .cls .cx, 0⟩,
  ⟨"pavgw", 13767, [0x66], false, [0x0F, 0xE3], .cls .cx, .mem, 0⟩,
  ⟨"pmulhuw", 15528, [0x66], false, [0x0F, 0xE4], .cls .cx, .cls .cx, 0⟩,
  ⟨"pmulhuw", 15544, [0x66], false, [0x0F, 0xE4], .cls .cx, .mem, 0⟩,
  ⟨"pmulhw", 15562, [0x66], false, [0x0F, 0xE5], .cls .cx, .cls .cx, 0⟩,
  ⟨"pmulhw", 15578, [0x66], false, [0x0F, 0xE5], .cls .cx, .mem, 0⟩,
  ⟨"cvttpd2dq", 7810, [0x66], false, [0x0F, 0xE6], .cls .cx, .cls .cx, 0⟩,
  ⟨"cvttpd2dq", 7826, [0x66], false, [0x0F, 0xE6], .cls .cx, .mem, 0⟩,
  ⟨"movntdq", 11204, [0x66], false, [0x0F, 0xE7], .cls .cx, .mem, 0⟩,
  ⟨"psubsb", 16607, [0x66], false, [0x0F, 0xE8], .cls .cx, .cls .cx, 0⟩,
  ⟨"psubsb", 16623, [0x66], false, [0x0F, 0xE8], .cls .cx, .mem, 0⟩,
  ⟨"psubsw", 16641, [0x66], false, [0x0F, 0xE9], .cls .cx, .cls .cx, 0⟩,
  ⟨"psubsw", 16657, [0x66], false, [0x0F, 0xE9], .cls .cx, .mem, 0⟩,
  ⟨"pminsw", 14902, [0x66], false, [0x0F, 0xEA], .cls .cx, .cls .cx, 0⟩,
  ⟨"pminsw", 14918, [0x66], false, [0x0F, 0xEA], .cls .cx, .mem, 0⟩,
  ⟨"por", 15883, [0x66], false, [0x0F, 0xEB], .cls .cx, .cls .cx, 0⟩,
  ⟨"por", 15899, [0x66], false, [0x0F, 0xEB], .cls .cx, .mem, 0⟩,
  ⟨"paddsb", 13467, [0x66], false, [0x0F, 0xEC], .cls .cx, .cls .cx, 0⟩,
  ⟨"paddsb", 13483, [0x66], false, [0x0F, 0xEC], .cls .cx, .mem, 0⟩,
  ⟨"paddsw", 13501, [0x66], false, [0x0F, 0xED], .cls .cx, .cls .cx, 0⟩,
  ⟨"paddsw", 13517, [0x66], false, [0x0F, 0xED], .cls .cx, .mem, 0⟩,
  ⟨"pmaxsw", 14692, [0x66], false, [0x0F, 0xEE], .cls .cx, .cls .cx, 0⟩,
  ⟨"pmaxsw", 14708, [0x66], false, [0x0F, 0xEE], .cls .cx, .mem, 0⟩,
  ⟨"pxor", 17195, [0x66], false, [0x0F, 0xEF], .cls .cx, .cls .cx, 0⟩,
  ⟨"pxor", 17211, [0x66], false, [0x0F, 0xEF], .cls .cx, .mem, 0⟩,
  ⟨"psllw", 16197, [0x66], false, [0x0F, 0xF1], .cls .cx, .cls .cx, 0⟩,
  ⟨"psllw", 16213, [0x66], false, [0x0F, 0xF1], .cls .cx, .mem, 0⟩,
  ⟨"pslld", 16076, [0x66], false, [0x0F, 0xF2], .cls .cx, .cls .cx, 0⟩,
  ⟨"pslld", 16092, [0x66], false, [0x0F, 0xF2], .cls .cx, .mem, 0⟩,
  ⟨"psllq", 16146, [0x66], false, [0x0F, 0xF3], .cls .cx, .cls .cx, 0⟩,
  ⟨"psllq", 16162, [0x66], false, [0x0F, 0xF3], .cls .cx, .mem, 0⟩,
  ⟨"pmuludq", 15666, [0x66], false, [0x0F, 0xF4], .cls .cx, .cls .cx, 0⟩,
  ⟨"pmuludq", 15682, [0x66], false, [0x0F, 0xF4], .cls .cx, .mem, 0⟩,
  ⟨"pmaddwd", 14586, [0x66], false, [0x0F, 0xF5], .cls .cx, .cls .cx, 0⟩,
  ⟨"pmaddwd", 14602, [0x66], false, [0x0F, 0xF5], .cls .cx, .mem, 0⟩,
  ⟨"psadbw", 15917, [0x66], false, [0x0F, 0xF6], .cls .cx, .cls .cx, 0⟩,
  ⟨"psadbw", 15933, [0x66], false, [0x0F, 0xF6], .cls .cx, .mem, 0⟩,
  ⟨"maskmovdqu", 10299, [0x66], false, [0x0F, 0xF7], .cls .cx, .cls .cx, 0⟩,
  ⟨"psubb", 16505, [0x66], false, [0x0F, 0xF8], .cls .cx, .cls .cx, 0⟩,
  ⟨"psubb", 16521, [0x66], false, [0x0F, 0xF8], .cls .cx, .mem, 0⟩,
  ⟨"psubw", 16743, [0x66], false, [0x0F, 0xF9], .cls .cx, .cls .cx, 0⟩,
  ⟨"psubw", 16759, [0x66], false, [0x0F, 0xF9], .cls .cx, .mem, 0⟩,
  ⟨"psubd", 16539, [0x66], false, [0x0F, 0xFA], .cls .cx, .cls .cx, 0⟩,
  ⟨"psubd", 16555, [0x66], false, [0x0F, 0xFA], .cls .cx, .mem, 0⟩,
  ⟨"psubq", 16573, [0x66], false, [0x0F, 0xFB], .cls .cx, .cls .cx, 0⟩,
  ⟨"psubq", 16589, [0x66], false, [0x0F, 0xFB], .cls .cx, .mem, 0⟩,
  ⟨"paddb", 13365, [0x66], false, [0x0F, 0xFC], .cls .cx, .cls .cx, 0⟩,
  ⟨"paddb", 13381, [0x66], false, [0x0F, 0xFC], .cls .cx, .mem, 0⟩,
  ⟨"paddw", 13603, [0x66], false, [0x0F, 0xFD], .cls .cx, .cls .cx, 0⟩,
  ⟨"paddw", 13619, [0x66], false, [0x0F, 0xFD], .cls .cx, .mem, 0⟩,
  ⟨"paddd", 13399, [0x66], false, [0x0F, 0xFE], .cls .cx, .cls .cx, 0⟩,
  ⟨"paddd", 13415, [0x66], false, [0x0F, 0xFE], .cls .cx, .mem, 0⟩,
  ⟨"pblendvb", 13785, [0x66], false, [0x0F, 0x38, 0x10], .cls .cx, .cls .cx, 0⟩,
  ⟨"pblendvb", 13802, [0x66], false, [0x0F, 0x38, 0x10], .cls .cx, .mem, 0⟩,
  ⟨"blendvps", 5113, [0x66], false, [0x0F, 0x38, 0x14], .cls .cx, .cls .cx, 0⟩,
  ⟨"blendvps", 5130, [0x66], false, [0x0F, 0x38, 0x14], .cls .cx, .mem, 0⟩,
  ⟨"blendvpd", 5077, [0x66], false, [0x0F, 0x38, 0x15], .cls .cx, .cls .cx, 0⟩,
  ⟨"blendvpd", 5094, [0x66], false, [0x0F, 0x38, 0x15], .cls .cx, .mem, 0⟩,
  ⟨"ptest", 16777, [0x66], false, [0x0F, 0x38, 0x17], .cls .cx, .cls .cx, 0⟩,
  ⟨"ptest", 16794, [0x66], false, [0x0F, 0x38, 0x17], .cls .cx, .mem, 0⟩,
  ⟨"pmovsxbw", 15132, [0x66], false, [0x0F, 0x38, 0x20], .cls .cx, .cls .cx, 0⟩,
  ⟨"pmovsxbw", 15149, [0x66], false, [0x0F, 0x38, 0x20], .cls .cx, .mem, 0⟩,
  ⟨"pmovsxbd", 15060, [0x66], false, [0x0F, 0x38, 0x21], .cls .cx, .cls .cx, 0⟩,
  ⟨"pmovsxbd", 15077, [0x66], false, [0x0F, 0x38, 0x21], .cls .cx, .mem, 0⟩,
  ⟨"pmovsxbq", 15096, [0x66], false, [0x0F, 0x38, 0x22], .cls .cx, .cls .cx, 0⟩,
  ⟨"pmovsxbq", 15113, [0x66], false, [0x0F, 0x38, 0x22], .cls .cx, .mem, 0⟩,
  ⟨"pmovsxwd", 15204, [0x66], false, [0x0F, 0x38, 0x23], .cls .cx, .cls .cx, 0⟩,
  ⟨"pmovsxwd", 15221, [0x66], false, [0x0F, 0x38, 0x23], .cls .cx, .mem, 0⟩]

/-- Part of `forms`. -/
def forms5 : List Form := [
  ⟨"pmovsxwq", 15240, [0x66], false, [0x0F, 0x38, 0x24], .cls .cx, .cls .cx, 0⟩,
  ⟨"pmovsxwq", 15257, [0x66], false, [0x0F, 0x38, 0x24], .cls .cx, .mem, 0⟩,
  ⟨"pmovsxdq", 15168, [0x66], false, [0x0F, 0x38, 0x25], .cls .cx, .cls .cx, 0⟩,
  ⟨"pmovsxdq", 15185, [0x66], false, [0x0F, 0x38, 0x25], .cls .cx, .mem, 0⟩,
  ⟨"pmuldq", 15492, [0x66], false, [0x0F, 0x38, 0x28], .cls .cx, .cls .cx, 0⟩,
  ⟨"pmuldq", 15509, [0x66], false, [0x0F, 0x38, 0x28], .cls .cx, .mem, 0⟩,
  ⟨"pcmpeqq", 13927, [0x66], false, [0x0F, 0x38, 0x29], .cls .cx, .cls .cx, 0⟩,
  ⟨"pcmpeqq", 13944, [0x66], false, [0x0F, 0x38, 0x29], .cls .cx, .mem, 0⟩,
  ⟨"movntdqa", 11222, [0x66], false, [0x0F, 0x38, 0x2A], .cls .cx, .mem, 0⟩,
  ⟨"packusdw", 13295, [0x66], false, [0x0F, 0x38, 0x2B], .cls .cx, .cls .cx, 0⟩,
  ⟨"packusdw", 13312, [0x66], false, [0x0F, 0x38, 0x2B], .cls .cx, .mem, 0⟩,
  ⟨"pmovzxbw", 15348, [0x66], false, [0x0F, 0x38, 0x30], .cls .cx, .cls .cx, 0⟩,
  ⟨"pmovzxbw", 15365, [0x66], false, [0x0F, 0x38, 0x30], .cls .cx, .mem, 0⟩,
  ⟨"pmovzxbd", 15276, [0x66], false, [0x0F, 0x38, 0x31], .cls .cx, .cls .cx, 0⟩,
  ⟨"pmovzxbd", 15293, [0x66], false, [0x0F, 0x38, 0x31], .cls .cx, .mem, 0⟩,
  ⟨"pmovzxbq", 15312, [0x66], false, [0x0F, 0x38, 0x32], .cls .cx, .cls .cx, 0⟩,
  ⟨"pmovzxbq", 15329, [0x66], false, [0x0F, 0x38, 0x32], .cls .cx, .mem, 0⟩,
  ⟨"pmovzxwd", 15420, [0x66], false, [0x0F, 0x38, 0x33], .cls .cx, .cls .cx, 0⟩,
  ⟨"pmovzxwd", 15437, [0x66], false, [0x0F, 0x38, 0x33], .cls .cx, .mem, 0⟩,
  ⟨"pmovzxwq", 15456, [0x66], false, [0x0F, 0x38, 0x34], .cls .cx, .cls .cx, 0⟩,
  ⟨"pmovzxwq", 15473, [0x66], false, [0x0F, 0x38, 0x34], .cls .cx, .mem, 0⟩,
  ⟨"pmovzxdq", 15384, [0x66], false, [0x0F, 0x38, 0x35], .cls .cx, .cls .cx, 0⟩,
  ⟨"pmovzxdq", 15401, [0x66], false, [0x0F, 0x38, 0x35], .cls .cx, .mem, 0⟩,
  ⟨"pcmpgtq", 14141, [0x66], false, [0x0F, 0x38, 0x37], .cls .cx, .cls .cx, 0⟩,
  ⟨"pcmpgtq", 14158, [0x66], false, [0x0F, 0x38, 0x37], .cls .cx, .mem, 0⟩,
  ⟨"pminsd", 14866, [0x66], false, [0x0F, 0x38, 0x39], .cls .cx, .cls .cx, 0⟩,
  ⟨"pminsd", 14883, [0x66], false, [0x0F, 0x38, 0x39], .cls .cx, .mem, 0⟩,
  ⟨"pminuw", 15006, [0x66], false, [0x0F, 0x38, 0x3A], .cls .cx, .cls .cx, 0⟩,
  ⟨"pminuw", 15023, [0x66], false, [0x0F, 0x38, 0x3A], .cls .cx, .mem, 0⟩,
  ⟨"pminud", 14970, [0x66], false, [0x0F, 0x38, 0x3B], .cls .cx, .cls .cx, 0⟩,
  ⟨"pminud", 14987, [0x66], false, [0x0F, 0x38, 0x3B], .cls .cx, .mem, 0⟩,
  ⟨"pmaxsb", 14620, [0x66], false, [0x0F, 0x38, 0x3C], .cls .cx, .cls .cx, 0⟩,
  ⟨"pmaxsb", 14637, [0x66], false, [0x0F, 0x38, 0x3C], .cls .cx, .mem, 0⟩,
  ⟨"pmaxsd", 14656, [0x66], false, [0x0F, 0x38, 0x3D], .cls .cx, .cls .cx, 0⟩,
  ⟨"pmaxsd", 14673, [0x66], false, [0x0F, 0x38, 0x3D], .cls .cx, .mem, 0⟩,
  ⟨"pmaxuw", 14796, [0x66], false, [0x0F, 0x38, 0x3E], .cls .cx, .cls .cx, 0⟩,
  ⟨"pmaxuw", 14813, [0x66], false, [0x0F, 0x38, 0x3E], .cls .cx, .mem, 0⟩,
  ⟨"pmaxud", 14760, [0x66], false, [0x0F, 0x38, 0x3F], .cls .cx, .cls .cx, 0⟩,
  ⟨"pmaxud", 14777, [0x66], false, [0x0F, 0x38, 0x3F], .cls .cx, .mem, 0⟩,
  ⟨"pmulld", 15596, [0x66], false, [0x0F, 0x38, 0x40], .cls .cx, .cls .cx, 0⟩,
  ⟨"pmulld", 15613, [0x66], false, [0x0F, 0x38, 0x40], .cls .cx, .mem, 0⟩,
  ⟨"phminposuw", 14438, [0x66], false, [0x0F, 0x38, 0x41], .cls .cx, .cls .cx, 0⟩,
  ⟨"phminposuw", 14455, [0x66], false, [0x0F, 0x38, 0x41], .cls .cx, .mem, 0⟩,
  ⟨"roundps", 18788, [0x66], false, [0x0F, 0x3A, 0x08], .cls .cx, .cls .cx, 1⟩,
  ⟨"roundps", 18806, [0x66], false, [0x0F, 0x3A, 0x08], .cls .cx, .mem, 1⟩,
  ⟨"roundpd", 18750, [0x66], false, [0x0F, 0x3A, 0x09], .cls .cx, .cls .cx, 1⟩,
  ⟨"roundpd", 18768, [0x66], false, [0x0F, 0x3A, 0x09], .cls .cx, .mem, 1⟩,
  ⟨"roundss", 18864, [0x66], false, [0x0F, 0x3A, 0x0A], .cls .cx, .cls .cx, 1⟩,
  ⟨"roundss", 18882, [0x66], false, [0x0F, 0x3A, 0x0A], .cls .cx, .mem, 1⟩,
  ⟨"roundsd", 18826, [0x66], false, [0x0F, 0x3A, 0x0B], .cls .cx, .cls .cx, 1⟩,
  ⟨"roundsd", 18844, [0x66], false, [0x0F, 0x3A, 0x0B], .cls .cx, .mem, 1⟩,
  ⟨"blendps", 5039, [0x66], false, [0x0F, 0x3A, 0x0C], .cls .cx, .cls .cx, 1⟩,
  ⟨"blendps", 5057, [0x66], false, [0x0F, 0x3A, 0x0C], .cls .cx, .mem, 1⟩,
  ⟨"blendpd", 5001, [0x66], false, [0x0F, 0x3A, 0x0D], .cls .cx, .cls .cx, 1⟩,
  ⟨"blendpd", 5019, [0x66], false, [0x0F, 0x3A, 0x0D], .cls .cx, .mem, 1⟩,
  ⟨"pblendw", 13821, [0x66], false, [0x0F, 0x3A, 0x0E], .cls .cx, .cls .cx, 1⟩,
  ⟨"pblendw", 13839, [0x66], false, [0x0F, 0x3A, 0x0E], .cls .cx, .mem, 1⟩,
  ⟨"pextrb", 14287, [0x66], false, [0x0F, 0x3A, 0x14], .cls .cx, .cls .c64, 1⟩,
  ⟨"pextrb", 14305, [0x66], false, [0x0F, 0x3A, 0x14], .cls .cx, .mem, 1⟩,
  ⟨"pextrw", 14418, [0x66], false, [0x0F, 0x3A, 0x15], .cls .cx, .mem, 1⟩,
  ⟨"pextrd", 14325, [0x66], false, [0x0F, 0x3A, 0x16], .cls .cx, .cls .c32, 1⟩,
  ⟨"pextrd", 14343, [0x66], false, [0x0F, 0x3A, 0x16], .cls .cx, .mem, 1⟩,
  ⟨"extractps", 8499, [0x66], false, [0x0F, 0x3A, 0x17], .cls .cx, .cls .c64, 1⟩,
  ⟨"extractps", 8517, [0x66], false, [0x0F, 0x3A, 0x17], .cls .cx, .mem, 1⟩,
  ⟨"pinsrb", 14474, [0x66], false, [0x0F, 0x3A, 0x20], .cls .cx, .cls .c32, 1⟩,
  ⟨"pinsrb", 14492, [0x66], false, [0x0F, 0x3A, 0x20], .cls .cx, .mem, 1⟩,
  ⟨"insertps", 9244, [0x66], false, [0x0F, 0x3A, 0x21], .cls .cx, .cls .cx, 1⟩,
  ⟨"insertps", 9262, [0x66], false, [0x0F, 0x3A, 0x21], .cls .cx, .mem, 1⟩,
  ⟨"pinsrd", 14512, [0x66], false, [0x0F, 0x3A, 0x22], .cls .cx, .cls .c32, 1⟩,
  ⟨"pinsrd", 14530, [0x66], false, [0x0F, 0x3A, 0x22], .cls .cx, .mem, 1⟩,
  ⟨"dpps", 8449, [0x66], false, [0x0F, 0x3A, 0x40], .cls .cx, .cls .cx, 1⟩,
  ⟨"dpps", 8467, [0x66], false, [0x0F, 0x3A, 0x40], .cls .cx, .mem, 1⟩,
  ⟨"dppd", 8411, [0x66], false, [0x0F, 0x3A, 0x41], .cls .cx, .cls .cx, 1⟩,
  ⟨"dppd", 8429, [0x66], false, [0x0F, 0x3A, 0x41], .cls .cx, .mem, 1⟩,
  ⟨"mpsadbw", 12112, [0x66], false, [0x0F, 0x3A, 0x42], .cls .cx, .cls .cx, 1⟩,
  ⟨"mpsadbw", 12130, [0x66], false, [0x0F, 0x3A, 0x42], .cls .cx, .mem, 1⟩,
  ⟨"pcmpestrm", 14035, [0x66], false, [0x0F, 0x3A, 0x60], .cls .cx, .cls .cx, 1⟩,
  ⟨"pcmpestrm", 14053, [0x66], false, [0x0F, 0x3A, 0x60], .cls .cx, .mem, 1⟩,
  ⟨"pcmpestri", 13997, [0x66], false, [0x0F, 0x3A, 0x61], .cls .cx, .cls .cx, 1⟩,
  ⟨"pcmpestri", 14015, [0x66], false, [0x0F, 0x3A, 0x61], .cls .cx, .mem, 1⟩,
  ⟨"pcmpistrm", 14249, [0x66], false, [0x0F, 0x3A, 0x62], .cls .cx, .cls .cx, 1⟩,
  ⟨"pcmpistrm", 14267, [0x66], false, [0x0F, 0x3A, 0x62], .cls .cx, .mem, 1⟩,
  ⟨"pcmpistri", 14211, [0x66], false, [0x0F, 0x3A, 0x63], .cls .cx, .cls .cx, 1⟩,
  ⟨"pcmpistri", 14229, [0x66], false, [0x0F, 0x3A, 0x63], .cls .cx, .mem, 1⟩,
  ⟨"movq", 11424, [0x66], true, [0x0F, 0x6E], .cls .cx, .cls .c64, 0⟩,
  ⟨"movq", 11440, [0x66], true, [0x0F, 0x6E], .cls .cx, .mem, 0⟩,
  ⟨"movq", 11392, [0x66], true, [0x0F, 0x7E], .cls .cx, .cls .c64, 0⟩,
  ⟨"movq", 11408, [0x66], true, [0x0F, 0x7E], .cls .cx, .mem, 0⟩,
  ⟨"pextrq", 14363, [0x66], true, [0x0F, 0x3A, 0x16], .cls .cx, .cls .c64, 1⟩,
  ⟨"pextrq", 14381, [0x66], true, [0x0F, 0x3A, 0x16], .cls .cx, .mem, 1⟩,
  ⟨"movsd", 11572, [0xF2], false, [0x0F, 0x10], .cls .cx, .cls .cx, 0⟩,
  ⟨"movsd", 11588, [0xF2], false, [0x0F, 0x10], .cls .cx, .mem, 0⟩,
  ⟨"movsd", 11604, [0xF2], false, [0x0F, 0x11], .cls .cx, .mem, 0⟩,
  ⟨"cvtsi2sdl", 7574, [0xF2], false, [0x0F, 0x2A], .cls .cx, .cls .c32, 0⟩,
  ⟨"cvtsi2sdl", 7590, [0xF2], false, [0x0F, 0x2A], .cls .cx, .mem, 0⟩,
  ⟨"cvttsd2si", 7878, [0xF2], false, [0x0F, 0x2C], .cls .c32, .cls .cx, 0⟩,
  ⟨"cvttsd2si", 7894, [0xF2], false, [0x0F, 0x2C], .cls .c32, .mem, 0⟩,
  ⟨"cvtsd2si", 7474, [0xF2], false, [0x0F, 0x2D], .cls .c32, .cls .cx, 0⟩,
  ⟨"cvtsd2si", 7490, [0xF2], false, [0x0F, 0x2D], .cls .c32, .mem, 0⟩,
  ⟨"sqrtsd", 22370, [0xF2], false, [0x0F, 0x51], .cls .cx, .cls .cx, 0⟩,
  ⟨"sqrtsd", 22386, [0xF2], false, [0x0F, 0x51], .cls .cx, .mem, 0⟩,
  ⟨"addsd", 4244, [0xF2], false, [0x0F, 0x58], .cls .cx, .cls .cx, 0⟩,
  ⟨"addsd", 4260, [0xF2], false, [0x0F, 0x58], .cls .cx, .mem, 0⟩,
  ⟨"mulsd", 12306, [0xF2], false, [0x0F, 0x59], .cls .cx, .cls .cx, 0⟩,
  ⟨"mulsd", 12322, [0xF2], false, [0x0F, 0x59], .cls .cx, .mem, 0⟩,
  ⟨"cvtsd2ss", 7540, [0xF2], false, [0x0F, 0x5A], .cls .cx, .cls .cx, 0⟩,
  ⟨"cvtsd2ss", 7556, [0xF2], false, [0x0F, 0x5A], .cls .cx, .mem, 0⟩,
  ⟨"subsd", 22901, [0xF2], false, [0x0F, 0x5C], .cls .cx, .cls .cx, 0⟩,
  ⟨"subsd", 22917, [0xF2], false, [0x0F, 0x5C], .cls .cx, .mem, 0⟩,
  ⟨"minsd", 10530, [0xF2], false, [0x0F, 0x5D], .cls .cx, .cls .cx, 0⟩,
  ⟨"minsd", 10546, [0xF2], false, [0x0F, 0x5D], .cls .cx, .mem, 0⟩,
  ⟨"divsd", 8311, [0xF2], false, [0x0F, 0x5E], .cls .cx, .cls .cx, 0⟩,
  ⟨"divsd", 8327, [0xF2], false, [0x0F, 0x5E], .cls .cx, .mem, 0⟩,
  ⟨"maxsd", 10383, [0xF2], false, [0x0F, 0x5F], .cls .cx, .cls .cx, 0⟩,
  ⟨"maxsd", 10399, [0xF2], false, [0x0F, 0x5F], .cls .cx, .mem, 0⟩,
  ⟨"pshuflw", 16023, [0xF2], false, [0x0F, 0x70], .cls .cx, .cls .cx, 1⟩,
  ⟨"pshuflw", 16040, [0xF2], false, [0x0F, 0x70], .cls .cx, .mem, 1⟩,
  ⟨"cmpsd", 6669, [0xF2], false, [0x0F, 0xC2], .cls .cx, .cls .cx, 1⟩,
  ⟨"cmpsd", 6686, [0xF2], false, [0x0F, 0xC2], .cls .cx, .mem, 1⟩,
  ⟨"cvtpd2dq", 7340, [0xF2], false, [0x0F, 0xE6], .cls .cx, .cls .cx, 0⟩,
  ⟨"cvtpd2dq", 7356, [0xF2], false, [0x0F, 0xE6], .cls .cx, .mem, 0⟩,
  ⟨"crc32b", 7094, [0xF2], false, [0x0F, 0x38, 0xF0], .cls .c32, .cls .c8, 0⟩,
  ⟨"crc32b", 7111, [0xF2], false, [0x0F, 0x38, 0xF0], .cls .c32, .mem, 0⟩,
  ⟨"crc32l", 7164, [0xF2], false, [0x0F, 0x38, 0xF1], .cls .c32, .cls .c32, 0⟩,
  ⟨"crc32l", 7181, [0xF2], false, [0x0F, 0x38, 0xF1], .cls .c32, .mem, 0⟩,
  ⟨"cvtsi2sdq", 7608, [0xF2], true, [0x0F, 0x2A], .cls .cx, .cls .c64, 0⟩,
  ⟨"cvtsi2sdq", 7624, [0xF2], true, [0x0F, 0x2A], .cls .cx, .mem, 0⟩,
  ⟨"cvttsd2si", 7910, [0xF2], true, [0x0F, 0x2C], .cls .c64, .cls .cx, 0⟩,
  ⟨"cvttsd2si", 7926, [0xF2], true, [0x0F, 0x2C], .cls .c64, .mem, 0⟩,
  ⟨"cvtsd2si", 7506, [0xF2], true, [0x0F, 0x2D], .cls .c64, .cls .cx, 0⟩,
  ⟨"cvtsd2si", 7522, [0xF2], true, [0x0F, 0x2D], .cls .c64, .mem, 0⟩,
  ⟨"crc32b", 7128, [0xF2], true, [0x0F, 0x38, 0xF0], .cls .c64, .cls .c8, 0⟩,
  ⟨"crc32b", 7145, [0xF2], true, [0x0F, 0x38, 0xF0], .cls .c64, .mem, 0⟩,
  ⟨"crc32q", 7200, [0xF2], true, [0x0F, 0x38, 0xF1], .cls .c64, .cls .c64, 0⟩,
  ⟨"crc32q", 7217, [0xF2], true, [0x0F, 0x38, 0xF1], .cls .c64, .mem, 0⟩,
  ⟨"movss", 11663, [0xF3], false, [0x0F, 0x10], .cls .cx, .cls .cx, 0⟩,
  ⟨"movss", 11679, [0xF3], false, [0x0F, 0x10], .cls .cx, .mem, 0⟩,
  ⟨"movss", 11695, [0xF3], false, [0x0F, 0x11], .cls .cx, .mem, 0⟩,
  ⟨"cvtsi2ssl", 7642, [0xF3], false, [0x0F, 0x2A], .cls .cx, .cls .c32, 0⟩,
  ⟨"cvtsi2ssl", 7658, [0xF3], false, [0x0F, 0x2A], .cls .cx, .mem, 0⟩,
  ⟨"cvttss2si", 7944, [0xF3], false, [0x0F, 0x2C], .cls .c32, .cls .cx, 0⟩,
  ⟨"cvttss2si", 7960, [0xF3], false, [0x0F, 0x2C], .cls .c32, .mem, 0⟩,
  ⟨"cvtss2si", 7744, [0xF3], false, [0x0F, 0x2D], .cls .c32, .cls .cx, 0⟩,
  ⟨"cvtss2si", 7760, [0xF3], false, [0x0F, 0x2D], .cls .c32, .mem, 0⟩,
  ⟨"sqrtss", 22404, [0xF3], false, [0x0F, 0x51], .cls .cx, .cls .cx, 0⟩,
  ⟨"sqrtss", 22420, [0xF3], false, [0x0F, 0x51], .cls .cx, .mem, 0⟩,
  ⟨"rsqrtss", 18934, [0xF3], false, [0x0F, 0x52], .cls .cx, .cls .cx, 0⟩,
  ⟨"rsqrtss", 18950, [0xF3], false, [0x0F, 0x52], .cls .cx, .mem, 0⟩,
  ⟨"rcpss", 17619, [0xF3], false, [0x0F, 0x53], .cls .cx, .cls .cx, 0⟩,
  ⟨"rcpss", 17635, [0xF3], false, [0x0F, 0x53], .cls .cx, .mem, 0⟩,
  ⟨"addss", 4278, [0xF3], false, [0x0F, 0x58], .cls .cx, .cls .cx, 0⟩,
  ⟨"addss", 4294, [0xF3], false, [0x0F, 0x58], .cls .cx, .mem, 0⟩,
  ⟨"mulss", 12340, [0xF3], false, [0x0F, 0x59], .cls .cx, .cls .cx, 0⟩,
  ⟨"mulss", 12356, [0xF3], false, [0x0F, 0x59], .cls .cx, .mem, 0⟩,
  ⟨"cvtss2sd", 7710, [0xF3], false, [0x0F, 0x5A], .cls .cx, .cls .cx, 0⟩,
  ⟨"cvtss2sd", 7726, [0xF3], false, [0x0F, 0x5A], .cls .cx, .mem, 0⟩,
  ⟨"cvttps2dq", 7844, [0xF3], false, [0x0F, 0x5B], .cls .cx, .cls .cx, 0⟩,
  ⟨"cvttps2dq", 7860, [0xF3], false, [0x0F, 0x5B], .cls .cx, .mem, 0⟩,
  ⟨"subss", 22935, [0xF3], false, [0x0F, 0x5C], .cls .cx, .cls .cx, 0⟩,
  ⟨"subss", 22951, [0xF3], false, [0x0F, 0x5C], .cls .cx, .mem, 0⟩,
  ⟨"minss", 10564, [0xF3], false, [0x0F, 0x5D], .cls .cx, .cls .cx, 0⟩,
  ⟨"minss", 10580, [0xF3], false, [0x0F, 0x5D], .cls .cx, .mem, 0⟩,
  ⟨"divss", 8345, [0xF3], false, [0x0F, 0x5E], .cls .cx, .cls .cx, 0⟩,
  ⟨"divss", 8361, [0xF3], false, [0x0F, 0x5E], .cls .cx, .mem, 0⟩,
  ⟨"maxss", 10417, [0xF3], false, [0x0F, 0x5F], .cls .cx, .cls .cx, 0⟩,
  ⟨"maxss", 10433, [0xF3], false, [0x0F, 0x5F], .cls .cx, .mem, 0⟩,
  ⟨"movdqu", 10882, [0xF3], false, [0x0F, 0x6F], .cls .cx, .cls .cx, 0⟩,
  ⟨"movdqu", 10898, [0xF3], false, [0x0F, 0x6F], .cls .cx, .mem, 0⟩,
  ⟨"pshufhw", 15987, [0xF3], false, [0x0F, 0x70], .cls .cx, .cls .cx, 1⟩,
  ⟨"pshufhw", 16004, [0xF3], false, [0x0F, 0x70], .cls .cx, .mem, 1⟩,
  ⟨"movq", 11456, [0xF3], false, [0x0F, 0x7E], .cls .cx, .cls .cx, 0⟩,
  ⟨"movdqu", 10914, [0xF3], false, [0x0F, 0x7F], .cls .cx, .mem, 0⟩,
  ⟨"popcntl", 15700, [0xF3], false, [0x0F, 0xB8], .cls .c32, .cls .c32, 0⟩,
  ⟨"popcntl", 15716, [0xF3], false, [0x0F, 0xB8], .cls .c32, .mem, 0⟩,
  ⟨"cmpss", 6716, [0xF3], false, [0x0F, 0xC2], .cls .cx, .cls .cx, 1⟩,
  ⟨"cmpss", 6733, [0xF3], false, [0x0F, 0xC2], .cls .cx, .mem, 1⟩,
  ⟨"cvtdq2pd", 7274, [0xF3], false, [0x0F, 0xE6], .cls .cx, .cls .cx, 0⟩,
  ⟨"cvtdq2pd", 7290, [0xF3], false, [0x0F, 0xE6], .cls .cx, .mem, 0⟩,
  ⟨"cvtsi2ssq", 7676, [0xF3], true, [0x0F, 0x2A], .cls .cx, .cls .c64, 0⟩,
  ⟨"cvtsi2ssq", 7692, [0xF3], true, [0x0F, 0x2A], .cls .cx, .mem, 0⟩,
  ⟨"cvttss2si", 7976, [0xF3], true, [0x0F, 0x2C], .cls .c64, .cls .cx, 0⟩,
  ⟨"cvttss2si", 7992, [0xF3], true, [0x0F, 0x2C], .cls .c64, .mem, 0⟩,
  ⟨"cvtss2si", 7776, [0xF3], true, [0x0F, 0x2D], .cls .c64, .cls .cx, 0⟩,
  ⟨"cvtss2si", 7792, [0xF3], true, [0x0F, 0x2D], .cls .c64, .mem, 0⟩,
  ⟨"popcntq", 15734, [0xF3], true, [0x0F, 0xB8], .cls .c64, .cls .c64, 0⟩,
  ⟨"popcntq", 15750, [0xF3], true, [0x0F, 0xB8], .cls .c64, .mem, 0⟩,
  ⟨"crc32w", 7236, [0xF2, 0x66], false, [0x0F, 0x38, 0xF1], .cls .c32, .cls .c16, 0⟩,
  ⟨"crc32w", 7254, [0xF2, 0x66], false, [0x0F, 0x38, 0xF1], .cls .c32, .mem, 0⟩,
  ⟨"popcntw", 15768, [0xF3, 0x66], false, [0x0F, 0xB8], .cls .c16, .cls .c16, 0⟩,
  ⟨"popcntw", 15785, [0xF3, 0x66], false, [0x0F, 0xB8], .cls .c16, .mem, 0⟩]

/-- inst.rs: all forms with a ModR/M byte. -/
def forms : List Form :=
  forms0 ++ forms1 ++ forms2 ++ forms3 ++ forms4 ++ forms5

/-- Part of `opForms`. -/
def opForms0 : List OpForm := [
  ⟨"bswap", 5345, [], false, [0x0F, 0xC8], .c32, 0⟩,
  ⟨"bswap", 5357, [], true, [0x0F, 0xC8], .c64, 0⟩,
  ⟨"movb", 10695, [], false, [0xB0], .c8, 1⟩,
  ⟨"movl", 11015, [], false, [0xB8], .c32, 4⟩,
  ⟨"movq", 11308, [], true, [0xB8], .c64, 8⟩,
  ⟨"movw", 11874, [0x66], false, [0xB8], .c16, 2⟩,
  ⟨"popq", 15827, [], false, [0x58], .c64, 0⟩,
  ⟨"popw", 15854, [0x66], false, [0x58], .c16, 0⟩,
  ⟨"pushq", 17108, [], false, [0x50], .c64, 0⟩,
  ⟨"pushw", 17166, [0x66], false, [0x50], .c16, 0⟩,
  ⟨"xchgl", 23890, [], false, [0x90], .c32, 0⟩,
  ⟨"xchgl", 23915, [], false, [0x90], .c32, 0⟩,
  ⟨"xchgq", 23956, [], true, [0x90], .c64, 0⟩,
  ⟨"xchgq", 23981, [], true, [0x90], .c64, 0⟩,
  ⟨"xchgw", 24024, [0x66], false, [0x90], .c16, 0⟩,
  ⟨"xchgw", 24051, [0x66], false, [0x90], .c16, 0⟩]

/-- inst.rs: all forms with `RegInOpcode`. -/
def opForms : List OpForm :=
  opForms0

/-- Part of `fixedForms`. -/
def fixedForms0 : List FixedForm := [
  ⟨"addb", 3937, [], false, [0x04], 1⟩,
  ⟨"addl", 4051, [], false, [0x05], 4⟩,
  ⟨"orb", 12733, [], false, [0x0C], 1⟩,
  ⟨"orl", 12847, [], false, [0x0D], 4⟩,
  ⟨"adcb", 3502, [], false, [0x14], 1⟩,
  ⟨"adcl", 3616, [], false, [0x15], 4⟩,
  ⟨"sbbb", 19756, [], false, [0x1C], 1⟩,
  ⟨"sbbl", 19870, [], false, [0x1D], 4⟩,
  ⟨"andb", 4506, [], false, [0x24], 1⟩,
  ⟨"andl", 4620, [], false, [0x25], 4⟩,
  ⟨"subb", 22594, [], false, [0x2C], 1⟩,
  ⟨"subl", 22708, [], false, [0x2D], 4⟩,
  ⟨"xorb", 24137, [], false, [0x34], 1⟩,
  ⟨"xorl", 24251, [], false, [0x35], 4⟩,
  ⟨"cmpb", 6358, [], false, [0x3C], 1⟩,
  ⟨"cmpl", 6472, [], false, [0x3D], 4⟩,
  ⟨"pushq", 17140, [], false, [0x68], 4⟩,
  ⟨"pushq", 17119, [], false, [0x6A], 1⟩,
  ⟨"jo", 10004, [], false, [0x70], 1⟩,
  ⟨"jno", 9912, [], false, [0x71], 1⟩,
  ⟨"jb", 9436, [], false, [0x72], 1⟩,
  ⟨"jc", 9482, [], false, [0x72], 1⟩,
  ⟨"jnae", 9705, [], false, [0x72], 1⟩,
  ⟨"jae", 9413, [], false, [0x73], 1⟩,
  ⟨"jnb", 9728, [], false, [0x73], 1⟩,
  ⟨"jnc", 9774, [], false, [0x73], 1⟩,
  ⟨"je", 9505, [], false, [0x74], 1⟩,
  ⟨"jz", 10131, [], false, [0x74], 1⟩,
  ⟨"jne", 9797, [], false, [0x75], 1⟩,
  ⟨"jnz", 9981, [], false, [0x75], 1⟩,
  ⟨"jbe", 9459, [], false, [0x76], 1⟩,
  ⟨"jna", 9682, [], false, [0x76], 1⟩,
  ⟨"ja", 9390, [], false, [0x77], 1⟩,
  ⟨"jnbe", 9751, [], false, [0x77], 1⟩,
  ⟨"js", 10108, [], false, [0x78], 1⟩,
  ⟨"jns", 9958, [], false, [0x79], 1⟩,
  ⟨"jp", 10027, [], false, [0x7A], 1⟩,
  ⟨"jpe", 10050, [], false, [0x7A], 1⟩,
  ⟨"jnp", 9935, [], false, [0x7B], 1⟩,
  ⟨"jpo", 10073, [], false, [0x7B], 1⟩,
  ⟨"jl", 9586, [], false, [0x7C], 1⟩,
  ⟨"jnge", 9843, [], false, [0x7C], 1⟩,
  ⟨"jge", 9563, [], false, [0x7D], 1⟩,
  ⟨"jnl", 9866, [], false, [0x7D], 1⟩,
  ⟨"jle", 9609, [], false, [0x7E], 1⟩,
  ⟨"jng", 9820, [], false, [0x7E], 1⟩,
  ⟨"jg", 9540, [], false, [0x7F], 1⟩,
  ⟨"jnle", 9889, [], false, [0x7F], 1⟩,
  ⟨"nop", 12528, [], false, [0x90], 0⟩,
  ⟨"cwtl", 8022, [], false, [0x98], 0⟩,
  ⟨"cltd", 6240, [], false, [0x99], 0⟩,
  ⟨"pushfq", 17085, [], false, [0x9C], 0⟩,
  ⟨"popfq", 15804, [], false, [0x9D], 0⟩,
  ⟨"movsl", 11622, [], false, [0xA5], 0⟩,
  ⟨"cmpsl", 6705, [], false, [0xA7], 0⟩,
  ⟨"testb", 23162, [], false, [0xA8], 1⟩,
  ⟨"testl", 23232, [], false, [0xA9], 4⟩,
  ⟨"retq1", 18022, [], false, [0xC2], 2⟩,
  ⟨"retq", 18011, [], false, [0xC3], 0⟩,
  ⟨"leaveq", 10203, [], false, [0xC9], 0⟩,
  ⟨"int", 9292, [], false, [0xCC], 0⟩,
  ⟨"int", 9282, [], false, [0xCD], 1⟩,
  ⟨"iretl", 9355, [], false, [0xCF], 0⟩,
  ⟨"jecxz", 9528, [], false, [0xE3], 1⟩,
  ⟨"jrcxz", 10096, [], false, [0xE3], 1⟩,
  ⟨"inb", 9080, [], false, [0xE4], 1⟩,
  ⟨"inl", 9223, [], false, [0xE5], 1⟩,
  ⟨"outb", 13162, [], false, [0xE6], 1⟩,
  ⟨"outl", 13183, [], false, [0xE7], 1⟩,
  ⟨"callq", 6155, [], false, [0xE8], 4⟩,
  ⟨"jmpq", 9642, [], false, [0xE9], 4⟩,
  ⟨"jmpq", 9632, [], false, [0xEB], 1⟩,
  ⟨"inb", 9090, [], false, [0xEC], 0⟩,
  ⟨"inl", 9233, [], false, [0xED], 0⟩,
  ⟨"outb", 13172, [], false, [0xEE], 0⟩,
  ⟨"outl", 13193, [], false, [0xEF], 0⟩,
  ⟨"lock", 10288, [], false, [0xF0], 0⟩,
  ⟨"hlt", 8537, [], false, [0xF4], 0⟩,
  ⟨"cmc", 6275, [], false, [0xF5], 0⟩,
  ⟨"clc", 6207, [], false, [0xF8], 0⟩,
  ⟨"stc", 22438, [], false, [0xF9], 0⟩,
  ⟨"cli", 6229, [], false, [0xFA], 0⟩,
  ⟨"sti", 22460, [], false, [0xFB], 0⟩,
  ⟨"cld", 6218, [], false, [0xFC], 0⟩,
  ⟨"std", 22449, [], false, [0xFD], 0⟩,
  ⟨"clts", 6263, [], false, [0x0F, 0x06], 0⟩,
  ⟨"invd", 9303, [], false, [0x0F, 0x08], 0⟩,
  ⟨"wbinvd", 23664, [], false, [0x0F, 0x09], 0⟩,
  ⟨"ud2", 23456, [], false, [0x0F, 0x0B], 0⟩,
  ⟨"wrmsr", 23676, [], false, [0x0F, 0x30], 0⟩,
  ⟨"emms", 8487, [], false, [0x0F, 0x77], 0⟩,
  ⟨"jo", 10014, [], false, [0x0F, 0x80], 4⟩,
  ⟨"jno", 9922, [], false, [0x0F, 0x81], 4⟩,
  ⟨"jb", 9446, [], false, [0x0F, 0x82], 4⟩,
  ⟨"jc", 9492, [], false, [0x0F, 0x82], 4⟩,
  ⟨"jnae", 9715, [], false, [0x0F, 0x82], 4⟩,
  ⟨"jae", 9423, [], false, [0x0F, 0x83], 4⟩,
  ⟨"jnb", 9738, [], false, [0x0F, 0x83], 4⟩,
  ⟨"jnc", 9784, [], false, [0x0F, 0x83], 4⟩,
  ⟨"je", 9515, [], false, [0x0F, 0x84], 4⟩,
  ⟨"jz", 10141, [], false, [0x0F, 0x84], 4⟩,
  ⟨"jne", 9807, [], false, [0x0F, 0x85], 4⟩,
  ⟨"jnz", 9991, [], false, [0x0F, 0x85], 4⟩,
  ⟨"jbe", 9469, [], false, [0x0F, 0x86], 4⟩,
  ⟨"jna", 9692, [], false, [0x0F, 0x86], 4⟩,
  ⟨"ja", 9400, [], false, [0x0F, 0x87], 4⟩,
  ⟨"jnbe", 9761, [], false, [0x0F, 0x87], 4⟩,
  ⟨"js", 10118, [], false, [0x0F, 0x88], 4⟩,
  ⟨"jns", 9968, [], false, [0x0F, 0x89], 4⟩,
  ⟨"jp", 10037, [], false, [0x0F, 0x8A], 4⟩,
  ⟨"jpe", 10060, [], false, [0x0F, 0x8A], 4⟩,
  ⟨"jnp", 9945, [], false, [0x0F, 0x8B], 4⟩,
  ⟨"jpo", 10083, [], false, [0x0F, 0x8B], 4⟩,
  ⟨"jl", 9596, [], false, [0x0F, 0x8C], 4⟩,
  ⟨"jnge", 9853, [], false, [0x0F, 0x8C], 4⟩,
  ⟨"jge", 9573, [], false, [0x0F, 0x8D], 4⟩,
  ⟨"jnl", 9876, [], false, [0x0F, 0x8D], 4⟩,
  ⟨"jle", 9619, [], false, [0x0F, 0x8E], 4⟩,
  ⟨"jng", 9830, [], false, [0x0F, 0x8E], 4⟩,
  ⟨"jg", 9550, [], false, [0x0F, 0x8F], 4⟩,
  ⟨"jnle", 9899, [], false, [0x0F, 0x8F], 4⟩,
  ⟨"cpuid", 7070, [], false, [0x0F, 0xA2], 0⟩,
  ⟨"xsetbv", 24566, [], false, [0x0F, 0x01, 0xD1], 0⟩,
  ⟨"swapgs", 23091, [], false, [0x0F, 0x01, 0xF8], 0⟩,
  ⟨"lfence", 10243, [], false, [0x0F, 0xAE, 0xE8], 0⟩,
  ⟨"mfence", 10451, [], false, [0x0F, 0xAE, 0xF0], 0⟩,
  ⟨"sfence", 21079, [], false, [0x0F, 0xAE, 0xF8], 0⟩,
  ⟨"addq", 4231, [], true, [0x05], 4⟩,
  ⟨"orq", 13027, [], true, [0x0D], 4⟩,
  ⟨"adcq", 3730, [], true, [0x15], 4⟩,
  ⟨"sbbq", 19984, [], true, [0x1D], 4⟩,
  ⟨"andq", 4866, [], true, [0x25], 4⟩,
  ⟨"subq", 22888, [], true, [0x2D], 4⟩,
  ⟨"xorq", 24431, [], true, [0x35], 4⟩,
  ⟨"cmpq", 6656, [], true, [0x3D], 4⟩,
  ⟨"cltq", 6251, [], true, [0x98], 0⟩,
  ⟨"cqto", 7082, [], true, [0x99], 0⟩,
  ⟨"testq", 23302, [], true, [0xA9], 4⟩,
  ⟨"iretq", 9366, [], true, [0xCF], 0⟩,
  ⟨"addw", 4421, [0x66], false, [0x05], 2⟩,
  ⟨"orw", 13149, [0x66], false, [0x0D], 2⟩,
  ⟨"adcw", 3852, [0x66], false, [0x15], 2⟩,
  ⟨"sbbw", 20106, [0x66], false, [0x1D], 2⟩,
  ⟨"andw", 4988, [0x66], false, [0x25], 2⟩,
  ⟨"subw", 23078, [0x66], false, [0x2D], 2⟩,
  ⟨"xorw", 24553, [0x66], false, [0x35], 2⟩,
  ⟨"cmpw", 6861, [0x66], false, [0x3D], 2⟩,
  ⟨"pushq", 17129, [0x66], false, [0x68], 2⟩,
  ⟨"cbtw", 6195, [0x66], false, [0x98], 0⟩,
  ⟨"cwtd", 8010, [0x66], false, [0x99], 0⟩,
  ⟨"pushfw", 17096, [0x66], false, [0x9C], 0⟩,
  ⟨"popfw", 15815, [0x66], false, [0x9D], 0⟩,
  ⟨"testw", 23377, [0x66], false, [0xA9], 2⟩,
  ⟨"leavew", 10214, [0x66], false, [0xC9], 0⟩,
  ⟨"iretw", 9378, [0x66], false, [0xCF], 0⟩,
  ⟨"inw", 9332, [0x66], false, [0xE5], 1⟩,
  ⟨"outw", 13204, [0x66], false, [0xE7], 1⟩,
  ⟨"inw", 9343, [0x66], false, [0xED], 0⟩,
  ⟨"outw", 13215, [0x66], false, [0xEF], 0⟩,
  ⟨"pause", 13705, [0xF3], false, [0x90], 0⟩]

/-- inst.rs: all other forms. -/
def fixedForms : List FixedForm :=
  fixedForms0

end Verif.Asm
