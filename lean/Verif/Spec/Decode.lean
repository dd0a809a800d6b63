import Verif.Res
import Verif.Model.Errors
import Verif.Spec.Hex

/-!
# What parsing a hex string should do, for the property about decoding failures
-/

namespace Verif

/-- `parse` reads hex strings of an even length, of at most `limit` bytes if there is a limit, and hands the bytes to
`decode`. A wrong length and a character that is no digit are reported as bad hex. -/
structure Spec.ParsesHex {α : Type} (limit : Option ℕ) (decode parse : Bytes → Res DecodeError α) : Prop where
  odd_length : ∀ s : Bytes, s.length % 2 = 1 → parse s = .err (.badHexFormat .invalidLength)
  too_long : ∀ n ∈ limit, ∀ s : Bytes, 2 * n < s.length → parse s = .err (.badHexFormat .invalidLength)
  not_hex : ∀ s : Bytes, s.length % 2 = 0 → (∀ n ∈ limit, s.length ≤ 2 * n) → (¬ ∃ b, Spec.HexOf s b) →
    parse s = .err (.badHexFormat .invalidEncoding)
  hex : ∀ s b : Bytes, (∀ n ∈ limit, s.length ≤ 2 * n) → Spec.HexOf s b → parse s = decode b

end Verif
