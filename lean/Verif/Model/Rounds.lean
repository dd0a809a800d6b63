import Verif.Model.SigAgg

/-!
# `src/rounds.rs`

A method taking `&mut self` is a function returning the new state beside the result.
-/

namespace Verif

/-! ## Slots -/

/-- `Slots<T>`, rounds.rs:12-15. -/
structure Slots (T : Type) where
  slots : List (Option T)
  openSlots : List ℕ

/-- The loop of the standard library's `slice::binary_search_by`, used in rounds.rs:48: the last `base` with
`l[base] ≤ x` in the window `base .. base + size`. -/
def binarySearchLoop (l : List ℕ) (x : ℕ) (size base : ℕ) : ℕ :=
  if size > 1 then
    let half := size / 2
    let mid := base + half
    let base := if l[mid]?.getD 0 > x then base else mid
    binarySearchLoop l x (size - half) base
  else base
termination_by size

/-- `slice::binary_search(..).ok()`, rounds.rs:48. -/
def binarySearch (l : List ℕ) (x : ℕ) : Option ℕ :=
  if l.length = 0 then none
  else
    let base := binarySearchLoop l x l.length 0
    if l[base]? = some x then some base else none

namespace Slots

variable {T : Type}

/-- `Slots::new`, rounds.rs:19-24. -/
def new (expectedSize : ℕ) : Slots T := ⟨List.replicate expectedSize none, List.range expectedSize⟩

/-- `Slots::place`, rounds.rs:28-50. -/
def place [DecidableEq T] (self : Slots T) (value : T) (index : ℕ) :
    Slots T × Res RoundContributionError Unit :=
  if index ≥ self.slots.length then (self, .err ⟨index, .outOfRange self.slots.length⟩)
  else
    match self.slots[index]? with
    | none => (self, .panic)
    | some (some existing) =>
      if value = existing then (self, .ok ())
      else (self, .err ⟨index, .inconsistentContribution⟩)
    | some none =>
      let self := { self with slots := self.slots.set index (some value) }
      match binarySearch self.openSlots index with
      | none => (self, .panic)
      | some i => ({ self with openSlots := self.openSlots.eraseIdx i }, .ok ())

/-- `Slots::remaining`, rounds.rs:53-55. -/
def remaining (self : Slots T) : List ℕ := self.openSlots

/-- The `collect` of `Slots::finalize`, rounds.rs:60-63. -/
def collect : List (Option T) → Res RoundFinalizeError (List T)
  | [] => .ok []
  | o :: os => do
    let v ← Res.okOr o .incomplete
    let vs ← collect os
    return v :: vs

/-- `Slots::finalize`, rounds.rs:59-64. -/
def finalize (self : Slots T) : Res RoundFinalizeError (List T) := collect self.slots

end Slots

/-! ## First round -/

/-- `FirstRound`, rounds.rs:77-82. -/
structure FirstRound where
  keyAggCtx : KeyAggContext
  signerIndex : ℕ
  secnonce : SecNonce
  pubnonceSlots : Slots PubNonce

/-- `SecondRound`, rounds.rs:341-349. -/
structure SecondRound where
  keyAggCtx : KeyAggContext
  signerIndex : ℕ
  pubnonces : List PubNonce
  aggnonce : AggNonce
  adaptorPoint : MaybePoint
  message : Bytes
  partialSignatureSlots : Slots PartialSignature

namespace FirstRound

/-- The builder of `FirstRound::new`, rounds.rs:109-113. -/
def builder {ε : Type} (nonceSeed : Arr 32) (signerPubkey aggregatedPubkey : Point)
    (signerIndex : ℕ) (spices : SecNonceSpices) : Res ε SecNonceBuilder := do
  let b := SecNonceBuilder.new nonceSeed
  let b := b.withPubkey signerPubkey
  let b := b.withAggregatedPubkey aggregatedPubkey
  let b ← b.withExtraInput (beBytes 4 signerIndex)
  b.withSpices spices

/-- `FirstRound::new`, rounds.rs:98-127. -/
def new (H : Hash) (keyAggCtx : KeyAggContext) (nonceSeed : Arr 32) (signerIndex : ℕ)
    (spices : SecNonceSpices) : Res SignerIndexError FirstRound := do
  let signerPubkey ← Res.okOr (keyAggCtx.getPubkey signerIndex)
    ⟨signerIndex, keyAggCtx.pubkeys.length⟩
  let aggregatedPubkey := keyAggCtx.aggregatedPubkey
  let b ← builder nonceSeed signerPubkey aggregatedPubkey signerIndex spices
  let secnonce := b.build H
  let pubnonce := secnonce.publicNonce
  let pubnonceSlots := Slots.new keyAggCtx.pubkeys.length
  let r := pubnonceSlots.place pubnonce signerIndex
  Res.unwrapRes r.2
  return { keyAggCtx, signerIndex, secnonce, pubnonceSlots := r.1 }

/-- `our_public_nonce`, rounds.rs:130-132. -/
def ourPublicNonce (self : FirstRound) : PubNonce := self.secnonce.publicNonce

/-- `holdouts`, rounds.rs:138-140. -/
def holdouts (self : FirstRound) : List ℕ := self.pubnonceSlots.remaining

/-- `receive_nonce`, rounds.rs:145-151. -/
def receiveNonce (self : FirstRound) (signerIndex : ℕ) (pubnonce : PubNonce) :
    FirstRound × Res RoundContributionError Unit :=
  let r := self.pubnonceSlots.place pubnonce signerIndex
  ({ self with pubnonceSlots := r.1 }, r.2)

/-- `is_complete`, rounds.rs:154-156. -/
def isComplete (self : FirstRound) : Bool := self.holdouts.isEmpty

/-- `finalize_adaptor`, rounds.rs:211-249. -/
def finalizeAdaptor (H : Hash) (self : FirstRound) (seckey : Scalar) (adaptorPoint : MaybePoint)
    (message : Bytes) : Res RoundFinalizeError SecondRound := do
  let pubnonces ← self.pubnonceSlots.finalize
  let aggnonce := AggNonce.sum pubnonces
  let partialSignature ←
    (signPartialAdaptor H self.keyAggCtx seckey self.secnonce aggnonce adaptorPoint message).mapErr
      RoundFinalizeError.signingError
  let slots := Slots.new pubnonces.length
  let r := slots.place partialSignature self.signerIndex
  Res.unwrapRes r.2
  return {
    keyAggCtx := self.keyAggCtx
    signerIndex := self.signerIndex
    pubnonces
    aggnonce
    adaptorPoint
    message
    partialSignatureSlots := r.1 }

/-- `finalize`, rounds.rs:178-187. -/
def finalize (H : Hash) (self : FirstRound) (seckey : Scalar) (message : Bytes) :
    Res RoundFinalizeError SecondRound :=
  self.finalizeAdaptor H seckey 0 message

/-- `sign_for_aggregator`, rounds.rs:275-291. -/
def signForAggregator (H : Hash) (self : FirstRound) (seckey : Scalar) (message : Bytes)
    (aggregatedNonce : AggNonce) : Res SigningError PartialSignature :=
  signPartial H self.keyAggCtx seckey self.secnonce aggregatedNonce message

/-- `sign_for_aggregator_adaptor`, rounds.rs:315-333. -/
def signForAggregatorAdaptor (H : Hash) (self : FirstRound) (seckey : Scalar)
    (adaptorPoint : MaybePoint) (message : Bytes) (aggregatedNonce : AggNonce) :
    Res SigningError PartialSignature :=
  signPartialAdaptor H self.keyAggCtx seckey self.secnonce aggregatedNonce adaptorPoint message

end FirstRound

/-! ## Second round -/

namespace SecondRound

/-- `aggregated_nonce`, rounds.rs:356-358. -/
def aggregatedNonce (self : SecondRound) : AggNonce := self.aggnonce

/-- `our_signature`, rounds.rs:361-365. -/
def ourSignature {ε : Type} (self : SecondRound) : Res ε PartialSignature := do
  let o ← index self.partialSignatureSlots.slots self.signerIndex
  Res.unwrap o

/-- `holdouts`, rounds.rs:371-373. -/
def holdouts (self : SecondRound) : List ℕ := self.partialSignatureSlots.remaining

/-- The checks of `receive_signature` before the slot is written, rounds.rs:385-398. -/
def checkSignature (H : Hash) (self : SecondRound) (signerIndex : ℕ)
    (partialSignature : PartialSignature) : Res RoundContributionError Unit := do
  let signerPubkey ← Res.okOr (self.keyAggCtx.getPubkey signerIndex)
    ⟨signerIndex, .outOfRange self.keyAggCtx.pubkeys.length⟩
  let pubnonce ← index self.pubnonces signerIndex
  (verifyPartialAdaptor H self.keyAggCtx partialSignature self.aggnonce self.adaptorPoint
    signerPubkey pubnonce self.message).mapErr fun _ => ⟨signerIndex, .invalidSignature⟩

/-- `receive_signature`, rounds.rs:379-404. -/
def receiveSignature (H : Hash) (self : SecondRound) (signerIndex : ℕ)
    (partialSignature : PartialSignature) : SecondRound × Res RoundContributionError Unit :=
  match self.checkSignature H signerIndex partialSignature with
  | .err e => (self, .err e)
  | .panic => (self, .panic)
  | .ok () =>
    let r := self.partialSignatureSlots.place partialSignature signerIndex
    ({ self with partialSignatureSlots := r.1 }, r.2)

/-- `is_complete`, rounds.rs:407-409. -/
def isComplete (self : SecondRound) : Bool := self.holdouts.isEmpty

/-- `finalize_adaptor`, rounds.rs:449-459. -/
def finalizeAdaptor (H : Hash) (self : SecondRound) : Res RoundFinalizeError AdaptorSignature := do
  let partialSignatures ← self.partialSignatureSlots.finalize
  (aggregatePartialAdaptorSignatures H self.keyAggCtx self.aggnonce self.adaptorPoint
    partialSignatures self.message).mapErr RoundFinalizeError.invalidAggregatedSignature

/-- `finalize`, rounds.rs:423-433. -/
def finalize (H : Hash) (self : SecondRound) : Res RoundFinalizeError LiftedSignature := do
  let sig ← self.finalizeAdaptor H
  Res.unwrap (sig.adapt 0)

end SecondRound

end Verif
