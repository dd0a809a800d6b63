import Mathlib.Data.Nat.Notation
import Verif.Model.Errors

/-!
# The `Display` implementations of `src/errors.rs`

A text is its list of characters. Some of the texts of `DecodeError` are those of other crates, and one is made by the
compiler; they are parameters (`ForeignTexts`).
-/

namespace Verif

/-- A character as which a digit is printed (`{}` in errors.rs:73, 214, 217). -/
def digitChar (d : ℕ) : Char := Char.ofNat (48 + d)

/-- How `{}` prints a `usize` (errors.rs:73, 214, 217): in decimal, without leading zeros. -/
def decimal (n : ℕ) : List Char :=
  if n < 10 then [digitChar n] else decimal (n / 10) ++ [digitChar (n % 10)]

/-- `KeyAggError`, errors.rs:12-16. -/
def KeyAggError.display (_ : KeyAggError) : List Char :=
  "computed an invalid aggregated key from a collection of public keys".toList

/-- `InvalidSecretKeysError`, errors.rs:29-33. -/
def InvalidSecretKeysError.display (_ : InvalidSecretKeysError) : List Char :=
  "missing or invalid secret keys provided for aggregation".toList

/-- `TweakError`, errors.rs:47-51. -/
def TweakError.display (_ : TweakError) : List Char := "tweak value is invalid".toList

/-- `SignerIndexError`, errors.rs:69-77. -/
def SignerIndexError.display (self : SignerIndexError) : List Char :=
  "signer index ".toList ++ decimal self.index ++ " is out of range for group of ".toList ++ decimal self.nSigners
    ++ " signers".toList

/-- `SigningError`, errors.rs:102-113. -/
def SigningError.display (self : SigningError) : List Char :=
  "failed to create signature: ".toList ++
    match self with
    | .unknownKey => "signing key is not a member of the group".toList
    | .selfVerifyFail => "failed to verify our own signature; something is wrong".toList

/-- `VerifyError`, errors.rs:127-138. -/
def VerifyError.display (self : VerifyError) : List Char :=
  "failed to verify signature: ".toList ++
    match self with
    | .unknownKey => "public key is not a member of the group".toList
    | .badSignature => "signature is invalid".toList

/-- `RoundContributionError`, errors.rs:209-224. -/
def RoundContributionError.display (self : RoundContributionError) : List Char :=
  "invalid signer index ".toList ++ decimal self.index ++ ": ".toList ++
    match self.reason with
    | .outOfRange nSigners => "exceeds max index for ".toList ++ decimal nSigners ++ " signers".toList
    | .inconsistentContribution => "received inconsistent contributions from same signer".toList
    | .invalidSignature => "received invalid partial signature from peer".toList

/-- `RoundFinalizeError`, errors.rs:247-260. -/
def RoundFinalizeError.display (self : RoundFinalizeError) : List Char :=
  "cannot finalize round: ".toList ++
    match self with
    | .incomplete => "not all signers have contributed".toList
    | .signingError e => "signing failed, ".toList ++ e.display
    | .invalidAggregatedSignature e => "could not verify aggregated signature: ".toList ++ e.display

/-- The texts in errors.rs:346-352 that come from elsewhere: `std::any::type_name`, and the texts of the errors of
`base16ct` and `secp`. -/
structure ForeignTexts where
  typeName : List Char
  hexError : HexError → List Char
  invalidPointBytes : List Char
  invalidScalarBytes : List Char

/-- `DecodeError`, errors.rs:339-356, and the two texts of `Custom`, errors.rs:378-388. -/
def DecodeError.display (texts : ForeignTexts) (self : DecodeError) : List Char :=
  "error decoding ".toList ++ texts.typeName ++ ": ".toList ++
    match self with
    | .badHexFormat e => "hex decoding error: ".toList ++ texts.hexError e
    | .badLength size => "unexpected length ".toList ++ decimal size
    | .invalidPoint => texts.invalidPointBytes
    | .invalidScalar => texts.invalidScalarBytes
    | .customKeyAgg e => e.display
    | .customTweak _ => "serialized KeyAggContext contains an invalid tweak".toList

end Verif
