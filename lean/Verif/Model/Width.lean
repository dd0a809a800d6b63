import Verif.Model.Nonces

/-!
# Code whose behaviour depends on the width of `usize`

Everywhere else in the model lengths and counts are natural numbers, which is right where `usize` has 64 bits. Two
functions of the crate compute with numbers that need not fit into a `usize` of 32 bits (as on `wasm32`, or 32-bit
ARM): they are modelled again here for any width, with and without the compiler's overflow checks.
-/

namespace Verif

/-- A compilation target (key_agg.rs:609, nonces.rs:56-59): the width of `usize`, and whether arithmetic overflow panics (as it does in debug builds) or
wraps around (as in release builds). -/
structure Target where
  bits : ℕ
  overflowChecks : Bool

/-- What a `usize` operation (key_agg.rs:609, nonces.rs:56-59) with the mathematical result `x` evaluates to. -/
def Target.usize {ε : Type} (t : Target) (x : ℕ) : Res ε ℕ :=
  if x < 2 ^ t.bits then .ok x
  else if t.overflowChecks then .panic
  else .ok (x % 2 ^ t.bits)

/-- `KeyAggContext::from_bytes`, key_agg.rs:584-630. Only the product in line 609 can overflow: the other values are
sums and differences of numbers up to the length of the slice. -/
def KeyAggContext.fromBytesOn (t : Target) (H : Hash) (bytes : Bytes) : Res DecodeError KeyAggContext := do
  if bytes.length < 38 then .err (.badLength bytes.length)
  else
    let headerByte ← index bytes 0
    let parityAcc : Bool := headerByte &&& 1 = 1
    let (tweakAcc, cursor) ←
      if headerByte &&& 2 ≠ 0 then do
        let s ← slice bytes 1 (1 + 32)
        let t ← Res.okOr (parseScalar s) DecodeError.invalidScalar
        pure (some t, 1 + 32)
      else pure (none, 1)
    let nPubkeyBytes ← slice bytes cursor (cursor + 4)
    let nPubkey := beNat nPubkeyBytes
    let cursor := cursor + 4
    let keysLen ← t.usize (nPubkey * 33)
    if bytes.length - cursor ≠ keysLen then .err (.badLength bytes.length)
    else
      let rest ← slice bytes cursor bytes.length
      let pubkeys ← parsePubkeys rest
      let keyAggCtx ← (new H pubkeys).mapErr DecodeError.customKeyAgg
      let keyAggCtx := { keyAggCtx with
        parityAcc
        pubkey := if parityAcc then Point.neg keyAggCtx.pubkey else keyAggCtx.pubkey }
      match tweakAcc with
      | none => return keyAggCtx
      | some t => (keyAggCtx.withPlainTweak t).mapErr DecodeError.customTweak

/-- `iter().map(len).sum::<usize>()`, nonces.rs:56-59 and 378-382. -/
def sumLensOn {ε : Type} (t : Target) : List Bytes → ℕ → Res ε ℕ
  | [], acc => .ok acc
  | b :: bs, acc => do
    let acc ← t.usize (acc + b.length)
    sumLensOn t bs acc

/-- `extra_input_length_check`, nonces.rs:55-64. -/
def extraInputLengthCheckOn {ε : Type} (t : Target) (extraInputs : List Bytes) : Res ε Unit := do
  let totalLen ← sumLensOn t extraInputs 0
  Res.assert (totalLen ≤ u32Max)

/-- `SecNonceBuilder::with_extra_input`, nonces.rs:299-306. -/
def SecNonceBuilder.withExtraInputOn {ε : Type} (t : Target) (self : SecNonceBuilder) (extraInput : Bytes) :
    Res ε SecNonceBuilder := do
  let extraInputs := self.extraInputs ++ [extraInput]
  extraInputLengthCheckOn t extraInputs
  return { self with extraInputs }

end Verif
