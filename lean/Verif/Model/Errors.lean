/-!
# `src/errors.rs`

The `Display` implementations are in `Model/Display`.
-/

namespace Verif

/-- `KeyAggError`, errors.rs:11. -/
inductive KeyAggError where
  | keyAggError
deriving DecidableEq, Repr

/-- `InvalidSecretKeysError`, errors.rs:28. -/
inductive InvalidSecretKeysError where
  | invalidSecretKeysError
deriving DecidableEq, Repr

/-- `TweakError`, errors.rs:46. -/
inductive TweakError where
  | tweakError
deriving DecidableEq, Repr

/-- `SignerIndexError`, errors.rs:62-68. -/
structure SignerIndexError where
  index : Nat
  nSigners : Nat
deriving DecidableEq, Repr

/-- `SigningError`, errors.rs:90-101. -/
inductive SigningError where
  | unknownKey
  | selfVerifyFail
deriving DecidableEq, Repr

/-- `VerifyError`, errors.rs:118-126. -/
inductive VerifyError where
  | unknownKey
  | badSignature
deriving DecidableEq, Repr

/-- `From<VerifyError> for SigningError`, errors.rs:141-145. -/
def SigningError.ofVerifyError (_ : VerifyError) : SigningError := .selfVerifyFail

/-- `ContributionFaultReason`, errors.rs:150-171. -/
inductive ContributionFaultReason where
  | outOfRange (nSigners : Nat)
  | inconsistentContribution
  | invalidSignature
deriving DecidableEq, Repr

/-- `RoundContributionError`, errors.rs:175-207. -/
structure RoundContributionError where
  index : Nat
  reason : ContributionFaultReason
deriving DecidableEq, Repr

/-- `RoundFinalizeError`, errors.rs:231-245. -/
inductive RoundFinalizeError where
  | incomplete
  | signingError (e : SigningError)
  | invalidAggregatedSignature (e : VerifyError)
deriving DecidableEq, Repr

/-- `base16ct::Error`, kept in `BadHexFormat` (errors.rs:282). -/
inductive HexError where
  | invalidEncoding
  | invalidLength
deriving DecidableEq, Repr

/-- The reason of a `DecodeError`, errors.rs:279-300. `Custom(String)` is represented by which of the two
conversions (errors.rs:378-388) produced it. -/
inductive DecodeError where
  | badHexFormat (e : HexError)
  | badLength (size : Nat)
  | invalidPoint
  | invalidScalar
  | customKeyAgg (e : KeyAggError)
  | customTweak (e : TweakError)
deriving DecidableEq, Repr

end Verif
