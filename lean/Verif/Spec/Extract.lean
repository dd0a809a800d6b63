import Verif.Spec.Bip340

/-!
# Specification: what two signatures with one nonce give away

Over points and integers modulo the group order, with the BIP340 challenge. Every function is computable by somebody who
holds no secret.
-/

namespace Verif.Spec

/-- The BIP340 challenge of the nonce point `A`, the key `P` and the message. -/
def challenge (H : Hash) (A P : Pt) (msg : Bytes) : MaybeScalar :=
  (int_from_bytes (tagged_hash H "BIP0340/challenge" (xbytes A ++ xbytes P ++ msg)) : MaybeScalar)

/-- The same for a nonce that is given as bytes. -/
def challengeBytes (H : Hash) (rx : Bytes) (P : Pt) (msg : Bytes) : MaybeScalar :=
  (int_from_bytes (tagged_hash H "BIP0340/challenge" (rx ++ xbytes P ++ msg)) : MaybeScalar)

/-- `1` or `-1`: the sign that turns a point into the one with an even y coordinate. -/
def sgn (P : Pt) : MaybeScalar := if has_even_y P then 1 else -1

/-- The secret key of `P`, from two signature scalars `s` and `s'` that were made with the same nonce: `A` and `A'` are
the nonce points that went into the two challenges. -/
def extractKey (H : Hash) (P A A' : Pt) (msg msg' : Bytes) (s s' : MaybeScalar) : MaybeScalar :=
  sgn P * (sgn A * s - sgn A' * s') / (sgn A * challenge H A P msg - sgn A' * challenge H A' P msg')

/-- The byte string that BIP340 default signing hashes to its nonce. -/
def soloNonceInput (H : Hash) (sk : ℕ) (msg aux : Bytes) : Bytes :=
  let P := sk • G
  let d := if has_even_y P then sk else orderN - sk
  bytes_xor (bytes_from_int d) (tagged_hash H "BIP0340/aux" aux) ++ xbytes P ++ msg

end Verif.Spec
