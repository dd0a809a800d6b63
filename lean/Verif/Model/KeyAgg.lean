import Verif.Secp
import Verif.Res
import Verif.Model.TaggedHashes
import Verif.Model.Errors

/-!
# `src/key_agg.rs`
-/

namespace Verif

/-- `u32::MAX`, key_agg.rs:101 and nonces.rs:61. -/
def u32Max : ℕ := 4294967295

/-! ## `HashMap`

An association list, most recent insertion first. -/

/-- The type of the field `pubkey_indexes`, key_agg.rs:31. The order in which a `HashMap` keeps its entries is not
modelled: the code only inserts and gets. -/
abbrev HashMap (κ ν : Type) := List (κ × ν)

/-- `HashMap::insert`, used by `from_iter` in key_agg.rs:126. -/
def HashMap.insert {κ ν : Type} (m : HashMap κ ν) (k : κ) (v : ν) : HashMap κ ν := (k, v) :: m

/-- `HashMap::get`, used in key_agg.rs:427-429. -/
def HashMap.get? {κ ν : Type} [DecidableEq κ] (m : HashMap κ ν) (k : κ) : Option ν :=
  (m.find? (fun kv => kv.1 = k)).map (·.2)

/-- `HashMap::from_iter`, key_agg.rs:126: insert one after the other. -/
def HashMap.fromIter {κ ν : Type} (l : List (κ × ν)) : HashMap κ ν :=
  l.foldl (fun m kv => HashMap.insert m kv.1 kv.2) []

/-- Rust's `b[i..j]`, panicking when out of range (key_agg.rs:597, 604, 613 and elsewhere). -/
def slice {ε : Type} (b : Bytes) (i j : ℕ) : Res ε Bytes :=
  if i ≤ j ∧ j ≤ b.length then .ok ((b.drop i).take (j - i)) else .panic

/-- `v[i]`, panicking when out of range (key_agg.rs:451-454, rounds.rs:362 and elsewhere). -/
def index {ε α : Type} (l : List α) (i : ℕ) : Res ε α := Res.unwrap l[i]?

/-! ## The context -/

/-- `KeyAggContext`, key_agg.rs:23-42. -/
structure KeyAggContext where
  pubkey : Point
  orderedPubkeys : List Point
  pubkeyIndexes : HashMap Point ℕ
  keyCoefficients : List MaybeScalar
  effectivePubkeys : List MaybePoint
  parityAcc : Bool
  tweakAcc : MaybeScalar

/-- `hash_pubkeys`, key_agg.rs:492-498. -/
def hashPubkeys (H : Hash) (pubkeys : List Point) : Arr 32 :=
  tagHash H KEYAGG_LIST_TAG_DIGEST (pubkeys.map fun pk => (serPoint pk.1).1).flatten

/-- `compute_key_aggregation_coefficient`, key_agg.rs:500-517. -/
def computeKeyAggregationCoefficient (H : Hash) (pkListHash : Arr 32) (pubkey : Point)
    (pk2 : Option Point) : MaybeScalar :=
  if pk2 = some pubkey then 1
  else reduceFrom (tagHash H KEYAGG_COEFF_TAG_DIGEST (pkListHash.1 ++ (serPoint pubkey.1).1))

namespace KeyAggContext

/-- `KeyAggContext::new`, key_agg.rs:93-143. -/
def new (H : Hash) (orderedPubkeys : List Point) : Res KeyAggError KeyAggContext := do
  Res.assert (!orderedPubkeys.isEmpty)
  Res.assert (orderedPubkeys.length ≤ u32Max)
  let first ← index orderedPubkeys 0
  let pk2 := (orderedPubkeys.drop 1).find? (fun pubkey => pubkey ≠ first)
  let pkListHash := hashPubkeys H orderedPubkeys
  let pairs := orderedPubkeys.map fun pubkey =>
    let keyCoeff := computeKeyAggregationCoefficient H pkListHash pubkey pk2
    (keyCoeff • pubkey.1, keyCoeff)
  let effectivePubkeys := pairs.map (·.1)
  let keyCoefficients := pairs.map (·.2)
  let aggregatedPubkey ← Res.okOr (notInf effectivePubkeys.sum) .keyAggError
  let pubkeyIndexes := HashMap.fromIter (orderedPubkeys.zipIdx.map fun pi => (pi.1, pi.2))
  return {
    pubkey := aggregatedPubkey
    orderedPubkeys
    pubkeyIndexes
    keyCoefficients
    effectivePubkeys
    parityAcc := false
    tweakAcc := 0 }

/-- `with_plain_tweak`, key_agg.rs:221-235. -/
def withPlainTweak (self : KeyAggContext) (tweak : Scalar) : Res TweakError KeyAggContext := do
  let tweakedPubkey ← Res.okOr (notInf (self.pubkey.1 + tweak.1 • G)) .tweakError
  let newTweakAcc := self.tweakAcc + tweak.1
  return { self with pubkey := tweakedPubkey, tweakAcc := newTweakAcc }

/-- `with_xonly_tweak`, key_agg.rs:238-265. -/
def withXonlyTweak (self : KeyAggContext) (tweak : Scalar) : Res TweakError KeyAggContext :=
  if !isOdd self.pubkey.1 then self.withPlainTweak tweak
  else do
    let tweakedPubkey ← Res.okOr (notInf (tweak.1 • G - self.pubkey.1)) .tweakError
    let newTweakAcc := tweak.1 - self.tweakAcc
    return { self with pubkey := tweakedPubkey, parityAcc := !self.parityAcc, tweakAcc := newTweakAcc }

/-- `with_tweak`, key_agg.rs:200-206. -/
def withTweak (self : KeyAggContext) (tweak : Scalar) (isXonly : Bool) :
    Res TweakError KeyAggContext :=
  if isXonly then self.withXonlyTweak tweak else self.withPlainTweak tweak

/-- `with_tweaks`, key_agg.rs:209-218. -/
def withTweaks : KeyAggContext → List (Scalar × Bool) → Res TweakError KeyAggContext
  | self, [] => .ok self
  | self, (tweak, isXonly) :: ts => do
    let self' ← self.withTweak tweak isXonly
    withTweaks self' ts

/-- `with_taproot_tweak_internal`, key_agg.rs:267-278. -/
def withTaprootTweakInternal (H : Hash) (self : KeyAggContext) (merkleRoot : Bytes) :
    Res TweakError KeyAggContext := do
  let tweakHash := tagHash H TAPROOT_TWEAK_TAG_DIGEST ((xonly self.pubkey.1).1 ++ merkleRoot)
  let tweak ← Res.okOr (parseScalar tweakHash.1) .tweakError
  self.withXonlyTweak tweak

/-- `with_taproot_tweak`, key_agg.rs:303-305. -/
def withTaprootTweak (H : Hash) (self : KeyAggContext) (merkleRoot : Arr 32) :
    Res TweakError KeyAggContext :=
  withTaprootTweakInternal H self merkleRoot.1

/-- `with_unspendable_taproot_tweak`, key_agg.rs:329-331. -/
def withUnspendableTaprootTweak (H : Hash) (self : KeyAggContext) : Res TweakError KeyAggContext :=
  withTaprootTweakInternal H self []

/-- `aggregated_pubkey`, key_agg.rs:367-369. -/
def aggregatedPubkey (self : KeyAggContext) : Point := self.pubkey

/-- `aggregated_pubkey_untweaked`, key_agg.rs:407-410. -/
def aggregatedPubkeyUntweaked {ε : Type} (self : KeyAggContext) : Res ε Point :=
  let untweaked := negIf self.parityAcc (self.pubkey.1 - self.tweakAcc • G)
  Res.unwrap (notInf untweaked)

/-- `tweak_sum`, key_agg.rs:415-417. -/
def tweakSum (self : KeyAggContext) : Option Scalar := notZero self.tweakAcc

/-- `pubkeys`, key_agg.rs:421-423. -/
def pubkeys (self : KeyAggContext) : List Point := self.orderedPubkeys

/-- `pubkey_index`, key_agg.rs:427-429. -/
def pubkeyIndex (self : KeyAggContext) (pubkey : Point) : Option ℕ := HashMap.get? self.pubkeyIndexes pubkey

/-- `get_pubkey`, key_agg.rs:435-437. -/
def getPubkey (self : KeyAggContext) (i : ℕ) : Option Point := self.orderedPubkeys[i]?

/-- `key_coefficient`, key_agg.rs:451-454. -/
def keyCoefficient {ε : Type} (self : KeyAggContext) (pubkey : Point) : Res ε (Option MaybeScalar) :=
  match self.pubkeyIndex pubkey with
  | none => .ok none
  | some i => do return some (← index self.keyCoefficients i)

/-- `effective_pubkey`, key_agg.rs:462-465. -/
def effectivePubkey {ε : Type} (self : KeyAggContext) (pubkey : Point) : Res ε (Option MaybePoint) :=
  match self.pubkeyIndex pubkey with
  | none => .ok none
  | some i => do return some (← index self.effectivePubkeys i)

/-- The loop of `aggregated_seckey`, key_agg.rs:476-479. -/
def seckeyLoop (coeffs : List MaybeScalar) :
    ℕ → List Scalar → MaybeScalar → Res InvalidSecretKeysError MaybeScalar
  | _, [], acc => .ok acc
  | i, seckey :: rest, acc => do
    let keyCoeff ← Res.okOr coeffs[i]? .invalidSecretKeysError
    seckeyLoop coeffs (i + 1) rest (acc + seckey.1 * keyCoeff)

/-- `aggregated_seckey`, key_agg.rs:471-489. -/
def aggregatedSeckey (self : KeyAggContext) (seckeys : List Scalar) :
    Res InvalidSecretKeysError Scalar := do
  let groupSeckey ← seckeyLoop self.keyCoefficients 0 seckeys 0
  let groupSeckey := negIf self.parityAcc groupSeckey
  let groupTweakedSeckey ← Res.okOr (notZero (groupSeckey + self.tweakAcc)) .invalidSecretKeysError
  if mulG groupTweakedSeckey ≠ self.pubkey then .err .invalidSecretKeysError
  else return groupTweakedSeckey

/-- `PartialEq::eq`, key_agg.rs:519-525. -/
def eq (self other : KeyAggContext) : Bool :=
  decide (self.orderedPubkeys = other.orderedPubkeys) && (self.parityAcc == other.parityAcc)
    && decide (self.tweakAcc = other.tweakAcc)

/-- `to_bytes`, key_agg.rs:557-579. -/
def toBytes (self : KeyAggContext) : Bytes :=
  let parityAccBit : UInt8 := if self.parityAcc then 1 else 0
  let tweakAccBit : UInt8 := if self.tweakAcc ≠ 0 then 1 else 0
  let headerByte := (tweakAccBit <<< 1) ||| parityAccBit
  [headerByte]
    ++ (if tweakAccBit ≠ 0 then (serScalar self.tweakAcc).1 else [])
    ++ beBytes 4 self.orderedPubkeys.length
    ++ (self.orderedPubkeys.map fun pk => (serPoint pk.1).1).flatten

/-- `chunks_exact(33).map(Point::from_slice).collect::<Result<_, _>>()`, key_agg.rs:613-616. -/
def parsePubkeys (b : Bytes) : Res DecodeError (List Point) :=
  if _h : 33 ≤ b.length then do
    let pk ← Res.okOr (parsePoint (b.take 33)) .invalidPoint
    let rest ← parsePubkeys (b.drop 33)
    return pk :: rest
  else .ok []
termination_by b.length
decreasing_by simp; omega

/-- `from_bytes`, key_agg.rs:584-629. -/
def fromBytes (H : Hash) (bytes : Bytes) : Res DecodeError KeyAggContext := do
  if bytes.length < 38 then .err (.badLength bytes.length)
  else
    let headerByte ← index bytes 0
    let parityAcc : Bool := headerByte &&& 1 = 1
    let (tweakAcc, cursor) ←
      if headerByte &&& 2 ≠ 0 then do
        let s ← slice bytes 1 (1 + 32)
        let t ← Res.okOr (parseScalar s) DecodeError.invalidScalar
        pure (some t, 1 + 32)
      else pure (none, 1)
    let nPubkeyBytes ← slice bytes cursor (cursor + 4)
    let nPubkey := beNat nPubkeyBytes
    let cursor := cursor + 4
    if bytes.length - cursor ≠ nPubkey * 33 then .err (.badLength bytes.length)
    else
      let rest ← slice bytes cursor bytes.length
      let pubkeys ← parsePubkeys rest
      let keyAggCtx ← (new H pubkeys).mapErr DecodeError.customKeyAgg
      let keyAggCtx := { keyAggCtx with
        parityAcc
        pubkey := if parityAcc then Point.neg keyAggCtx.pubkey else keyAggCtx.pubkey }
      match tweakAcc with
      | none => return keyAggCtx
      | some t => (keyAggCtx.withPlainTweak t).mapErr DecodeError.customTweak

end KeyAggContext

end Verif
