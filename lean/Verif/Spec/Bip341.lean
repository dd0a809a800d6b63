import Verif.Spec.Bip340

/-!
# Specification: BIP341 taproot output keys
-/

namespace Verif.Spec

/-- `taproot_tweak_pubkey(pubkey, h)` of BIP341: parity bit and x coordinate of the output key. Infinity, which
the BIP does not mention, fails. -/
def taproot_tweak_pubkey (H : Hash) (pubkey h : Bytes) : Option (Bool × Bytes) := do
  let t := int_from_bytes (tagged_hash H "TapTweak" (pubkey ++ h))
  if t ≥ orderN then none
  else
    let P ← lift_x pubkey
    let Q := P + t • G
    if Q = 0 then none
    else some (!has_even_y Q, xbytes Q)

end Verif.Spec
