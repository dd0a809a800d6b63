import Verif.Bytes

/-!
# What a hex string is

Strings are their ASCII bytes.
-/

namespace Verif.Spec

/-- The ASCII bytes of the sixteen digits. -/
def lowerDigits : Bytes :=
  [0x30, 0x31, 0x32, 0x33, 0x34, 0x35, 0x36, 0x37, 0x38, 0x39, 0x61, 0x62, 0x63, 0x64, 0x65, 0x66]

/-- The ASCII bytes of the sixteen digits, letters in upper case. -/
def upperDigits : Bytes :=
  [0x30, 0x31, 0x32, 0x33, 0x34, 0x35, 0x36, 0x37, 0x38, 0x39, 0x41, 0x42, 0x43, 0x44, 0x45, 0x46]

/-- The tables are those of the strings. -/
theorem lowerDigits_eq : lowerDigits = "0123456789abcdef".toUTF8.toList := by decide +kernel
theorem upperDigits_eq : upperDigits = "0123456789ABCDEF".toUTF8.toList := by decide +kernel

/-- `c` is a digit, of either case, with the value `v`. -/
def HexDigit (c v : UInt8) : Prop := lowerDigits[v.toNat]? = some c ∨ upperDigits[v.toNat]? = some c

/-- `s` is a way to write `b` in hex, each digit in either case. -/
inductive HexOf : Bytes → Bytes → Prop
  | nil : HexOf [] []
  | cons {c d : UInt8} {hi lo : UInt8} {s b : Bytes} (h1 : HexDigit c hi) (h2 : HexDigit d lo) (h3 : HexOf s b) :
      HexOf (c :: d :: s) ((hi * 16 + lo) :: b)

/-- Two digits for each byte, from a table. -/
def hexWith (digits : Bytes) (b : Bytes) : Bytes :=
  b.flatMap fun x => [digits.getD (x.toNat / 16) 0, digits.getD (x.toNat % 16) 0]

end Verif.Spec
