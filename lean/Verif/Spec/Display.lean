import Mathlib.Data.Nat.Notation

/-!
# Reading numbers in texts
-/

namespace Verif

/-- The number a text of decimal digits stands for. -/
def Spec.readDecimal (l : List Char) : ℕ := l.foldl (fun a c => 10 * a + (c.toNat - 48)) 0

end Verif
