import Verif.Model.Signature

/-!
# `src/sig_agg.rs`
-/

namespace Verif

/-- `aggregate_partial_adaptor_signatures`, sig_agg.rs:17-55. -/
def aggregatePartialAdaptorSignatures (H : Hash) (keyAggCtx : KeyAggContext)
    (aggregatedNonce : AggNonce) (adaptorPoint : MaybePoint)
    (partialSignatures : List PartialSignature) (message : Bytes) :
    Res VerifyError AdaptorSignature :=
  let aggregatedPubkey := keyAggCtx.pubkey
  let b := aggregatedNonce.nonceCoefficient H aggregatedPubkey message
  let finalNonce := aggregatedNonce.finalNonce b
  let adaptedNonce := finalNonce.1 + adaptorPoint
  let nonceXBytes := xonly adaptedNonce
  let e := computeChallengeHashTweak H nonceXBytes aggregatedPubkey message
  let aggregatedSignature :=
    partialSignatures.sum + negIf (isOdd aggregatedPubkey.1) (e * keyAggCtx.tweakAcc)
  let effectiveNonce := if !isOdd adaptedNonce then finalNonce.1 else -finalNonce.1
  if aggregatedSignature • G ≠ effectiveNonce + e • (toEvenY aggregatedPubkey).1 then
    .err .badSignature
  else .ok ⟨finalNonce.1, aggregatedSignature⟩

/-- `aggregate_partial_signatures`, sig_agg.rs:62-84. -/
def aggregatePartialSignatures (H : Hash) (keyAggCtx : KeyAggContext)
    (aggregatedNonce : AggNonce) (partialSignatures : List PartialSignature) (message : Bytes) :
    Res VerifyError LiftedSignature := do
  let sig ← aggregatePartialAdaptorSignatures H keyAggCtx aggregatedNonce 0 partialSignatures message
  Res.unwrap (sig.adapt 0)

end Verif
