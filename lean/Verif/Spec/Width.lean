import Verif.Model.KeyAgg

/-!
# The fields of a serialized context, for the properties about the width of `usize`
-/

namespace Verif

/-- `tw` is an admissible tweak field after the header byte `hd`: nothing if bit 1 of the header is clear, otherwise a
scalar between 1 and the group order in 32 big-endian bytes. -/
def Spec.TweakField (hd : UInt8) (tw : Bytes) : Prop :=
  (hd &&& 2 = 0 ∧ tw = []) ∨ (hd &&& 2 ≠ 0 ∧ tw.length = 32 ∧ 0 < beNat tw ∧ beNat tw < orderN)

/-- The count which, multiplied by 33 modulo 2³², gives `len`: 33 · 1041204193 = 8 · 2³² + 1. -/
def Spec.wrappedCount (len : ℕ) : ℕ := len * 1041204193 % 2 ^ 32

end Verif
