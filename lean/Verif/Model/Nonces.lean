import Verif.Model.KeyAgg

/-!
# `src/nonces.rs`

`NonceSeed` (nonces.rs:19-45) is its 32 bytes; drawing it from an RNG is in `Model/Constructors`.
-/

namespace Verif

/-- `xor_bytes`, nonces.rs:47-53. -/
def xorBytes (a b : Arr 32) : Arr 32 :=
  ⟨List.zipWith (· ^^^ ·) a.1 b.1, by rw [List.length_zipWith, a.2, b.2]; rfl⟩

/-- `extra_input_length_check`, nonces.rs:55-64. -/
def extraInputLengthCheck {ε : Type} (extraInputs : List Bytes) : Res ε Unit :=
  Res.assert ((extraInputs.map List.length).sum ≤ u32Max)

/-! ## Spices -/

/-- `SecNonceSpices`, nonces.rs:78-83. -/
structure SecNonceSpices where
  seckey : Option Scalar
  message : Option Bytes
  extraInputs : List Bytes

namespace SecNonceSpices

/-- `SecNonceSpices::new`, nonces.rs:87-89. -/
def new : SecNonceSpices := ⟨none, none, []⟩

/-- `with_seckey`, nonces.rs:94-99. -/
def withSeckey (self : SecNonceSpices) (seckey : Scalar) : SecNonceSpices :=
  { self with seckey := some seckey }

/-- `with_message`, nonces.rs:104-109. -/
def withMessage (self : SecNonceSpices) (message : Bytes) : SecNonceSpices :=
  { self with message := some message }

/-- `with_extra_input`, nonces.rs:124-128. -/
def withExtraInput {ε : Type} (self : SecNonceSpices) (extraInput : Bytes) : Res ε SecNonceSpices := do
  let extraInputs := self.extraInputs ++ [extraInput]
  extraInputLengthCheck extraInputs
  return { self with extraInputs }

end SecNonceSpices

/-! ## Nonce types -/

/-- `SecNonce`, nonces.rs:424-427. -/
structure SecNonce where
  k1 : Scalar
  k2 : Scalar
deriving DecidableEq

/-- `PubNonce`, nonces.rs:514-519. -/
structure PubNonce where
  R1 : Point
  R2 : Point
deriving DecidableEq

/-- `AggNonce`, nonces.rs:544-549. -/
structure AggNonce where
  R1 : MaybePoint
  R2 : MaybePoint
deriving DecidableEq

/-! ## The builder -/

/-- `SecNonceBuilder`, nonces.rs:179-186. -/
structure SecNonceBuilder where
  nonceSeedBytes : Arr 32
  seckey : Option Scalar
  pubkey : Option Point
  aggregatedPubkey : Option Point
  message : Option Bytes
  extraInputs : List Bytes

namespace SecNonceBuilder

/-- `SecNonceBuilder::new`, nonces.rs:220-230. -/
def new (nonceSeed : Arr 32) : SecNonceBuilder := ⟨nonceSeed, none, none, none, none, []⟩

/-- `with_pubkey`, nonces.rs:237-242. -/
def withPubkey (self : SecNonceBuilder) (pubkey : Point) : SecNonceBuilder :=
  { self with pubkey := some pubkey }

/-- `with_seckey`, nonces.rs:250-257. -/
def withSeckey (self : SecNonceBuilder) (seckey : Scalar) : SecNonceBuilder :=
  { self with seckey := some seckey, pubkey := some (mulG seckey) }

/-- `with_message`, nonces.rs:261-266. -/
def withMessage (self : SecNonceBuilder) (msg : Bytes) : SecNonceBuilder :=
  { self with message := some msg }

/-- `with_aggregated_pubkey`, nonces.rs:270-278. -/
def withAggregatedPubkey (self : SecNonceBuilder) (aggregatedPubkey : Point) : SecNonceBuilder :=
  { self with aggregatedPubkey := some aggregatedPubkey }

/-- `with_extra_input`, nonces.rs:299-306. -/
def withExtraInput {ε : Type} (self : SecNonceBuilder) (extraInput : Bytes) : Res ε SecNonceBuilder := do
  let extraInputs := self.extraInputs ++ [extraInput]
  extraInputLengthCheck extraInputs
  return { self with extraInputs }

/-- `with_spices`, nonces.rs:312-321. -/
def withSpices {ε : Type} (self : SecNonceBuilder) (spices : SecNonceSpices) : Res ε SecNonceBuilder := do
  let seckey := spices.seckey.or self.seckey
  let message := spices.message.or self.message
  let extraInputs := self.extraInputs ++ spices.extraInputs
  extraInputLengthCheck extraInputs
  return { self with seckey, message, extraInputs }

/-- The bytes fed to the `MuSig/nonce` hasher before it is cloned, nonces.rs:334-390. -/
def hashInput (H : Hash) (self : SecNonceBuilder) : Bytes :=
  let seckeyBytes : Arr 32 := match self.seckey with
    | some seckey => serScalar seckey.1
    | none => ⟨List.replicate 32 0, rfl⟩
  let nonceSeedHash := tagHash H MUSIG_AUX_TAG_DIGEST self.nonceSeedBytes.1
  (xorBytes seckeyBytes nonceSeedHash).1
    ++ (match self.pubkey with
        | none => [0]
        | some pubkey => [33] ++ (serPoint pubkey.1).1)
    ++ (match self.aggregatedPubkey with
        | none => [0]
        | some aggregatedPubkey => [32] ++ (xonly aggregatedPubkey.1).1)
    ++ (match self.message with
        | none => [0]
        | some message => [1] ++ beBytes 8 message.length ++ message)
    ++ (if !self.extraInputs.isEmpty then
          beBytes 4 (self.extraInputs.map List.length).sum ++ self.extraInputs.flatten
        else [])

/-- `match MaybeScalar::reduce_from(..) { Zero => Scalar::one(), Valid(k) => k }`,
nonces.rs:396-403 and bip340.rs:61-64. -/
def reduceOrOne (h : Arr 32) : Scalar :=
  match notZero (reduceFrom h) with
  | none => scalarOne
  | some k => k

/-- `build`, nonces.rs:333-405. -/
def build (H : Hash) (self : SecNonceBuilder) : SecNonce :=
  let hash1 := tagHash H MUSIG_NONCE_TAG_DIGEST (self.hashInput H ++ [0])
  let hash2 := tagHash H MUSIG_NONCE_TAG_DIGEST (self.hashInput H ++ [1])
  { k1 := reduceOrOne hash1, k2 := reduceOrOne hash2 }

end SecNonceBuilder

namespace SecNonce

/-- `SecNonce::generate`, nonces.rs:461-474. -/
def generate {ε : Type} (H : Hash) (nonceSeed : Arr 32) (seckey : Scalar) (aggregatedPubkey : Point)
    (message extraInput : Bytes) : Res ε SecNonce := do
  let b := SecNonceBuilder.new nonceSeed
  let b := b.withSeckey seckey
  let b := b.withAggregatedPubkey aggregatedPubkey
  let b := b.withMessage message
  let b ← b.withExtraInput extraInput
  return b.build H

/-- `public_nonce`, nonces.rs:499-504. -/
def publicNonce (self : SecNonce) : PubNonce := ⟨mulG self.k1, mulG self.k2⟩

/-- `to_bytes`, nonces.rs:657-662. -/
def toBytes (self : SecNonce) : Bytes := (serScalar self.k1.1).1 ++ (serScalar self.k2.1).1

/-- `from_bytes`, nonces.rs:670-677. -/
def fromBytes (bytes : Bytes) : Res DecodeError SecNonce := do
  if bytes.length ≠ 64 ∧ bytes.length ≠ 97 then .err (.badLength bytes.length)
  else
    let b1 ← slice bytes 0 (64 / 2)
    let k1 ← Res.okOr (parseScalar b1) .invalidScalar
    let b2 ← slice bytes (64 / 2) 64
    let k2 ← Res.okOr (parseScalar b2) .invalidScalar
    return ⟨k1, k2⟩

end SecNonce

namespace PubNonce

/-- `to_bytes`, nonces.rs:685-690. -/
def toBytes (self : PubNonce) : Bytes := (serPoint self.R1.1).1 ++ (serPoint self.R2.1).1

/-- `from_bytes`, nonces.rs:694-701. -/
def fromBytes (bytes : Bytes) : Res DecodeError PubNonce := do
  if bytes.length ≠ 66 then .err (.badLength bytes.length)
  else
    let b1 ← slice bytes 0 (66 / 2)
    let R1 ← Res.okOr (parsePoint b1) .invalidPoint
    let b2 ← slice bytes (66 / 2) bytes.length
    let R2 ← Res.okOr (parsePoint b2) .invalidPoint
    return ⟨R1, R2⟩

end PubNonce

namespace AggNonce

/-- `AggNonce::sum`, nonces.rs:585-599, and `iter::Sum`, nonces.rs:766-772. -/
def sum (nonces : List PubNonce) : AggNonce :=
  let pairs := nonces.map fun pubnonce => (pubnonce.R1, pubnonce.R2)
  let r1s := pairs.map (·.1)
  let r2s := pairs.map (·.2)
  ⟨(r1s.map (·.1)).sum, (r2s.map (·.1)).sum⟩

/-- `nonce_coefficient`, nonces.rs:606-624. -/
def nonceCoefficient (H : Hash) (self : AggNonce) (aggregatedPubkey : Point) (message : Bytes) :
    MaybeScalar :=
  reduceFrom (tagHash H MUSIG_NONCECOEF_TAG_DIGEST
    ((serPoint self.R1).1 ++ (serPoint self.R2).1 ++ (xonly aggregatedPubkey.1).1 ++ message))

/-- `final_nonce`, nonces.rs:633-643. -/
def finalNonce (self : AggNonce) (nonceCoeff : MaybeScalar) : Point :=
  match notInf (self.R1 + nonceCoeff • self.R2) with
  | none => Gpt
  | some p => p

/-- `to_bytes`, nonces.rs:709-714. -/
def toBytes (self : AggNonce) : Bytes := (serPoint self.R1).1 ++ (serPoint self.R2).1

/-- `from_bytes`, nonces.rs:718-725. -/
def fromBytes (bytes : Bytes) : Res DecodeError AggNonce := do
  if bytes.length ≠ 66 then .err (.badLength bytes.length)
  else
    let b1 ← slice bytes 0 (66 / 2)
    let R1 ← Res.okOr (parseMaybePoint b1) .invalidPoint
    let b2 ← slice bytes (66 / 2) bytes.length
    let R2 ← Res.okOr (parseMaybePoint b2) .invalidPoint
    return ⟨R1, R2⟩

end AggNonce

end Verif
