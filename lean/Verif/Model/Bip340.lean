import Verif.Model.Signature

/-!
# `src/bip340.rs`
-/

namespace Verif

/-- `sign_solo_adaptor`, bip340.rs:31-79. -/
def signSoloAdaptor (H : Hash) (seckey : Scalar) (message : Bytes) (nonceSeed : Arr 32)
    (adaptorPoint : MaybePoint) : AdaptorSignature :=
  let pubkey := mulG seckey
  let d := seckey.negIf (isOdd pubkey.1)
  let h := tagHash H BIP0340_AUX_TAG_DIGEST nonceSeed.1
  let t := xorBytes h (serScalar d.1)
  let rand := tagHash H BIP0340_NONCE_TAG_DIGEST (t.1 ++ (xonly pubkey.1).1 ++ message)
  let prenonce := SecNonceBuilder.reduceOrOne rand
  let R := mulG prenonce
  let adaptedNonce := R.1 + adaptorPoint
  let k := prenonce.negIf (isOdd adaptedNonce)
  let nonceXBytes := xonly adaptedNonce
  let e := computeChallengeHashTweak H nonceXBytes pubkey message
  let s := k.1 + e * d.1
  AdaptorSignature.new R.1 s

/-- `sign_solo`, bip340.rs:92-104. -/
def signSolo {ε : Type} (H : Hash) (seckey : Scalar) (message : Bytes) (nonceSeed : Arr 32) :
    Res ε LiftedSignature :=
  Res.unwrap ((signSoloAdaptor H seckey message nonceSeed 0).adapt 0)

/-- `verify_single_adaptor`, bip340.rs:117-143. -/
def verifySingleAdaptor (H : Hash) (pubkey : Point) (adaptorSignature : AdaptorSignature)
    (message : Bytes) (adaptorPoint : MaybePoint) : Res VerifyError Unit :=
  let pubkey := toEvenY pubkey
  let R := adaptorSignature.R
  let s := adaptorSignature.s
  let adaptedNonce := R + adaptorPoint
  let nonceXBytes := xonly adaptedNonce
  let e := computeChallengeHashTweak H nonceXBytes pubkey message
  let effectiveNonce := if !isOdd adaptedNonce then R else -R
  if s • G ≠ effectiveNonce + e • pubkey.1 then .err .badSignature
  else .ok ()

/-- `verify_single`, bip340.rs:153-180. The argument `signature` is the outcome of
`signature.try_into()`, `none` standing for any conversion error. -/
def verifySingleWith (H : Hash) (pubkey : Point) (signature : Option CompactSignature)
    (message : Bytes) : Res VerifyError Unit := do
  let pubkey := toEvenY pubkey
  let sig ← Res.okOr signature .badSignature
  let e := computeChallengeHashTweak H sig.rx pubkey message
  let verificationPoint ← Res.okOr (notInf (sig.s • G - e • pubkey.1)) .badSignature
  if isOdd verificationPoint.1 then .err .badSignature
  else if xonly verificationPoint.1 = sig.rx then .ok ()
  else .err .badSignature

/-- `verify_single`, bip340.rs:153-180, called with a `CompactSignature` (the reflexive `TryInto`). -/
def verifySingle (H : Hash) (pubkey : Point) (signature : CompactSignature) (message : Bytes) :
    Res VerifyError Unit :=
  verifySingleWith H pubkey (some signature) message

/-- `verify_single` called with a `LiftedSignature` (signature.rs:345-350). -/
def verifySingleLifted (H : Hash) (pubkey : Point) (signature : LiftedSignature) (message : Bytes) :
    Res VerifyError Unit :=
  verifySingleWith H pubkey (some signature.compact) message

/-- `verify_single` called with bytes (`TryFrom<&[u8]>`, binary_encoding.rs:66-75). -/
def verifySingleBytes (H : Hash) (pubkey : Point) (signature : Bytes) (message : Bytes) :
    Res VerifyError Unit := do
  match CompactSignature.fromBytes signature with
  | .ok sig => verifySingleWith H pubkey (some sig) message
  | .err _ => verifySingleWith H pubkey none message
  | .panic => .panic

/-- `BatchVerificationRow`, bip340.rs:189-194. -/
structure BatchVerificationRow where
  pubkey : Point
  challenge : MaybeScalar
  R : MaybePoint
  s : MaybeScalar
deriving DecidableEq

namespace BatchVerificationRow

/-- `from_signature`, bip340.rs:199-214. -/
def fromSignature (H : Hash) (pubkey : Point) (message : Bytes) (signature : LiftedSignature) :
    BatchVerificationRow :=
  { pubkey
    challenge := computeChallengeHashTweak H (xonly signature.R.1) pubkey message
    R := signature.R.1
    s := signature.s }

/-- `from_adaptor_signature`, bip340.rs:217-246. -/
def fromAdaptorSignature (H : Hash) (pubkey : Point) (message : Bytes)
    (adaptorSignature : AdaptorSignature) (adaptorPoint : MaybePoint) : BatchVerificationRow :=
  let adaptedNonce := adaptorSignature.R + adaptorPoint
  let effectiveNonce :=
    if !isOdd adaptedNonce then adaptorSignature.R else -adaptorSignature.R
  { pubkey
    challenge := computeChallengeHashTweak H (xonly adaptedNonce) pubkey message
    R := effectiveNonce
    s := adaptorSignature.s }

end BatchVerificationRow

/-- The generator of bip340.rs:269-282: `Scalar::random` (bip340.rs:292) called for the `i`-th time on
`StdRng::from_seed(seed)` yields `rng seed i`. -/
abbrev SeedRng := Arr 32 → ℕ → Scalar

/-- The seed of `verify_batch`, bip340.rs:269-282. -/
def batchSeed (H : Hash) (rows : List BatchVerificationRow) : Arr 32 :=
  tagHash H BIP0340_BATCH_TAG_DIGEST
    ((rows.map fun row => (serScalar row.challenge).1).flatten
      ++ (rows.map fun row => (serScalar row.s).1).flatten)

/-- The loop of `verify_batch`, bip340.rs:288-300. `i` counts rows, `drawn` counts calls of
`Scalar::random`. -/
def batchLoop (rng : ℕ → Scalar) :
    ℕ → ℕ → List BatchVerificationRow → MaybeScalar → List MaybePoint → MaybeScalar × List MaybePoint
  | _, _, [], lhs, rhsTerms => (lhs, rhsTerms)
  | i, drawn, row :: rows, lhs, rhsTerms =>
    let random := if i = 0 then scalarOne else rng drawn
    let drawn := if i = 0 then drawn else drawn + 1
    let pubkey := toEvenY row.pubkey
    batchLoop rng (i + 1) drawn rows (lhs + row.s * random.1)
      (rhsTerms ++ [random.1 • row.R] ++ [(random.1 * row.challenge) • pubkey.1])

/-- `verify_batch`, bip340.rs:267-310. -/
def verifyBatch (H : Hash) (rng : SeedRng) (rows : List BatchVerificationRow) : Res VerifyError Unit :=
  let r := batchLoop (rng (batchSeed H rows)) 0 0 rows 0 []
  let rhs := r.2.sum
  if r.1 • G = rhs then .ok () else .err .badSignature

end Verif
