import Verif.Model.Nonces

/-!
# `src/signing.rs`
-/

namespace Verif

/-- `PartialSignature`, signing.rs:16. -/
abbrev PartialSignature := MaybeScalar

/-- `compute_challenge_hash_tweak`, signing.rs:21-35. -/
def computeChallengeHashTweak (H : Hash) (finalNonceXonly : Arr 32) (aggregatedPubkey : Point)
    (message : Bytes) : MaybeScalar :=
  reduceFrom (tagHash H BIP0340_CHALLENGE_TAG_DIGEST
    (finalNonceXonly.1 ++ (xonly aggregatedPubkey.1).1 ++ message))

/-- `verify_partial_adaptor`, signing.rs:147-189. -/
def verifyPartialAdaptor (H : Hash) (keyAggCtx : KeyAggContext) (partialSignature : PartialSignature)
    (aggregatedNonce : AggNonce) (adaptorPoint : MaybePoint) (individualPubkey : Point)
    (individualPubnonce : PubNonce) (message : Bytes) : Res VerifyError Unit := do
  let effectivePubkey ← Res.okOr (← keyAggCtx.effectivePubkey individualPubkey) .unknownKey
  let aggregatedPubkey := keyAggCtx.pubkey
  let b := aggregatedNonce.nonceCoefficient H aggregatedPubkey message
  let finalNonce := aggregatedNonce.finalNonce b
  let adaptedNonce := finalNonce.1 + adaptorPoint
  let effectiveNonce := individualPubnonce.R1.1 + b • individualPubnonce.R2.1
  let effectiveNonce := if isOdd adaptedNonce then -effectiveNonce else effectiveNonce
  let nonceXBytes := xonly adaptedNonce
  let e := computeChallengeHashTweak H nonceXBytes aggregatedPubkey message
  let challengeParity := isOdd aggregatedPubkey.1 ^^ keyAggCtx.parityAcc
  let challengePoint := negIf challengeParity (e • effectivePubkey)
  if partialSignature • G ≠ effectiveNonce + challengePoint then .err .badSignature
  else .ok ()

/-- `verify_partial`, signing.rs:206-223. -/
def verifyPartial (H : Hash) (keyAggCtx : KeyAggContext) (partialSignature : PartialSignature)
    (aggregatedNonce : AggNonce) (individualPubkey : Point)
    (individualPubnonce : PubNonce) (message : Bytes) : Res VerifyError Unit :=
  verifyPartialAdaptor H keyAggCtx partialSignature aggregatedNonce 0 individualPubkey
    individualPubnonce message

/-- `sign_partial_adaptor`, signing.rs:49-102. -/
def signPartialAdaptor (H : Hash) (keyAggCtx : KeyAggContext) (seckey : Scalar) (secnonce : SecNonce)
    (aggregatedNonce : AggNonce) (adaptorPoint : MaybePoint) (message : Bytes) :
    Res SigningError PartialSignature := do
  let pubkey := mulG seckey
  let keyCoeff ← Res.okOr (← keyAggCtx.keyCoefficient pubkey) .unknownKey
  let aggregatedPubkey := keyAggCtx.pubkey
  let pubnonce := secnonce.publicNonce
  let b := aggregatedNonce.nonceCoefficient H aggregatedPubkey message
  let finalNonce := aggregatedNonce.finalNonce b
  let adaptedNonce := finalNonce.1 + adaptorPoint
  let d := seckey.negIf (isOdd aggregatedPubkey.1 ^^ keyAggCtx.parityAcc)
  let nonceXBytes := xonly adaptedNonce
  let e := computeChallengeHashTweak H nonceXBytes aggregatedPubkey message
  let secnonceSum := negIf (isOdd adaptedNonce) (secnonce.k1.1 + b * secnonce.k2.1)
  let partialSignature := secnonceSum + e * keyCoeff * d.1
  (verifyPartialAdaptor H keyAggCtx partialSignature aggregatedNonce adaptorPoint pubkey pubnonce
    message).mapErr SigningError.ofVerifyError
  return partialSignature

/-- `sign_partial`, signing.rs:116-131. -/
def signPartial (H : Hash) (keyAggCtx : KeyAggContext) (seckey : Scalar) (secnonce : SecNonce)
    (aggregatedNonce : AggNonce) (message : Bytes) : Res SigningError PartialSignature :=
  signPartialAdaptor H keyAggCtx seckey secnonce aggregatedNonce 0 message

end Verif
