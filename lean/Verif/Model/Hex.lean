import Verif.Model.Signature

/-!
# `src/binary_encoding.rs` and the `base16ct` functions it calls

Strings are their UTF-8 bytes.
-/

namespace Verif

/-- The lower-case digit of a nibble (`base16ct::lower`, used in binary_encoding.rs:38). -/
def hexDigitLower (n : UInt8) : UInt8 := if n < 10 then 48 + n else 87 + n

/-- The upper-case digit of a nibble (`base16ct::upper`, used in binary_encoding.rs:46). -/
def hexDigitUpper (n : UInt8) : UInt8 := if n < 10 then 48 + n else 55 + n

/-- `base16ct::lower::encode_str`, used in binary_encoding.rs:35-40 and 188-194 (`LowerHex`) and 288-294 (`Display`). -/
def hexEncodeLower (b : Bytes) : Bytes :=
  (b.map fun (x : UInt8) => [hexDigitLower (x >>> 4), hexDigitLower (x &&& 15)]).flatten

/-- `base16ct::upper::encode_str`, used in binary_encoding.rs:43-48 and 197-203 (`UpperHex`). -/
def hexEncodeUpper (b : Bytes) : Bytes :=
  (b.map fun (x : UInt8) => [hexDigitUpper (x >>> 4), hexDigitUpper (x &&& 15)]).flatten

/-- `base16ct::mixed::decode_nibble`, used in binary_encoding.rs:61 and 215. -/
def hexNibble (c : UInt8) : Option UInt8 :=
  if 48 ≤ c ∧ c ≤ 57 then some (c - 48)
  else if 65 ≤ c ∧ c ≤ 70 then some (c - 55)
  else if 97 ≤ c ∧ c ≤ 102 then some (c - 87)
  else none

/-- The decoding loop of `base16ct` on an even number of digits, used in binary_encoding.rs:61 and 215. -/
def hexPairs : Bytes → Option Bytes
  | a :: b :: rest => do
    let hi ← hexNibble a
    let lo ← hexNibble b
    let tl ← hexPairs rest
    return (hi * 16 + lo) :: tl
  | _ => some []

/-- `base16ct::mixed::decode_vec`, used in binary_encoding.rs:215. -/
def hexDecodeVec (hex : Bytes) : Res HexError Bytes :=
  if hex.length % 2 ≠ 0 then .err .invalidLength
  else Res.okOr (hexPairs hex) .invalidEncoding

/-- `base16ct::mixed::decode` into a buffer of `n` bytes, used in binary_encoding.rs:61. -/
def hexDecode (n : ℕ) (hex : Bytes) : Res HexError Bytes :=
  if hex.length % 2 ≠ 0 then .err .invalidLength
  else if n < hex.length / 2 then .err .invalidLength
  else Res.okOr (hexPairs hex) .invalidEncoding

/-- `FromStr::from_str` for a fixed length encoding, binary_encoding.rs:59-63. -/
def fromStrFixed {α : Type} (byteLen : ℕ) (fromBytes : Bytes → Res DecodeError α) (hex : Bytes) :
    Res DecodeError α := do
  let bytes ← (hexDecode byteLen hex).mapErr DecodeError.badHexFormat
  fromBytes bytes

/-- `FromStr::from_str` for a variable length encoding, binary_encoding.rs:214-217. -/
def fromStrVar {α : Type} (fromBytes : Bytes → Res DecodeError α) (hex : Bytes) :
    Res DecodeError α := do
  let bytes ← (hexDecodeVec hex).mapErr DecodeError.badHexFormat
  fromBytes bytes

/-- `SecNonce::from_hex` (nonces.rs:728: byte length 64). -/
def SecNonce.fromHex : Bytes → Res DecodeError SecNonce := fromStrFixed 64 SecNonce.fromBytes

/-- `PubNonce::from_hex` (nonces.rs:729). -/
def PubNonce.fromHex : Bytes → Res DecodeError PubNonce := fromStrFixed 66 PubNonce.fromBytes

/-- `AggNonce::from_hex` (nonces.rs:730). -/
def AggNonce.fromHex : Bytes → Res DecodeError AggNonce := fromStrFixed 66 AggNonce.fromBytes

/-- `CompactSignature::from_hex` (signature.rs:322). -/
def CompactSignature.fromHex : Bytes → Res DecodeError CompactSignature :=
  fromStrFixed 64 CompactSignature.fromBytes

/-- `LiftedSignature::from_hex` (signature.rs:323). -/
def LiftedSignature.fromHex : Bytes → Res DecodeError LiftedSignature :=
  fromStrFixed 64 LiftedSignature.fromBytes

/-- `AdaptorSignature::from_hex` (signature.rs:324). -/
def AdaptorSignature.fromHex : Bytes → Res DecodeError AdaptorSignature :=
  fromStrFixed 65 AdaptorSignature.fromBytes

/-- `KeyAggContext::from_hex` (key_agg.rs:632). -/
def KeyAggContext.fromHex (H : Hash) : Bytes → Res DecodeError KeyAggContext :=
  fromStrVar (KeyAggContext.fromBytes H)

end Verif
