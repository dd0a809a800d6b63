import Verif.Spec.Claims
import Mathlib.Data.Set.Card
import Mathlib.Data.Rat.Defs

/-!
# Probabilities over one answer of the hash function

Used by `Props/Uniform`: a hash function is fixed everywhere except at one byte string, where its answer is drawn
uniformly from the `2 ^ 256` strings of 32 bytes.
-/

namespace Verif

/-- The hash function that answers the byte string `x` with `h`, and every other one as `H` does. -/
def Hash.answering (H : Hash) (x : Bytes) (h : Arr 32) : Hash := fun y => if y = x then h else H y

/-- The share of the 32-byte strings that satisfy `E`. -/
noncomputable def Spec.prob (E : Arr 32 → Prop) : ℚ := ({h | E h}.ncard : ℚ) / 2 ^ 256

/-- The share of the non-zero scalars that are in `S`. -/
noncomputable def Spec.share (S : Set Scalar) : ℚ := (S.ncard : ℚ) / (orderN - 1 : ℕ)

/-- What a builder hashes to its first (`i = 0`) or second (`i = 1`) secret nonce. -/
def Spec.nonceQuery (H : Hash) (b : SecNonceBuilder) (i : UInt8) : Bytes :=
  Spec.taggedInput "MuSig/nonce" ((nonceInputs H b).bytes ++ [i])

/-- What solo signing hashes to its nonce. -/
def Spec.soloNonceQuery (H : Hash) (sk : Scalar) (msg : Bytes) (seed : Arr 32) : Bytes :=
  Spec.taggedInput "BIP0340/nonce" (Spec.soloNonceInput H sk.1.val msg seed.1)

/-- What key aggregation hashes to the coefficient of `P`. -/
def Spec.coeffQuery (H : Hash) (keys : List Point) (P : Point) : Bytes :=
  Spec.taggedInput "KeyAgg coefficient"
    ((H (Spec.taggedInput "KeyAgg list" (keys.map fun K => Spec.cbytes K.1).flatten)).1 ++ Spec.cbytes P.1)

/-- What is hashed to the challenge of a signature under `P` with the nonce of x coordinate `rx`. -/
def Spec.challengeQuery (rx : Bytes) (P : Point) (msg : Bytes) : Bytes :=
  Spec.taggedInput "BIP0340/challenge" (rx ++ Spec.xbytes P.1 ++ msg)

/-- What is hashed to the coefficient of the second half of an aggregate nonce. -/
def Spec.noncecoefQuery (an : AggNonce) (Q : Point) (msg : Bytes) : Bytes :=
  Spec.taggedInput "MuSig/noncecoef" (Spec.cbytes_ext an.R1 ++ Spec.cbytes_ext an.R2 ++ Spec.xbytes Q.1 ++ msg)

/-- What is hashed to a taproot tweak. -/
def Spec.taptweakQuery (Q : Point) (root : Bytes) : Bytes :=
  Spec.taggedInput "TapTweak" (Spec.xbytes Q.1 ++ root)

end Verif
