import Verif.Model.Hex

/-!
# Formatting, `src/binary_encoding.rs`

`SecNonce` has no `Display`. The conversion traits (`TryFrom`, `From`) and `serialize` only call `from_bytes` and
`to_bytes` (binary_encoding.rs:66-126, 220-243) and have no definitions of their own here, except the one from 97 bytes.
-/

namespace Verif

/-- `base16ct::{lower, upper}::encode_str(&bytes, &mut buffer).unwrap()`, binary_encoding.rs:38, 46, 192 and 201: a
panic if the buffer is too short. -/
def encodeStrUnwrap (encode : Bytes → Bytes) (bufferLen : ℕ) (bytes : Bytes) : Res Unit Bytes :=
  if bufferLen < 2 * bytes.length then .panic else .ok (encode bytes)

/-- `LowerHex::fmt` for a fixed length encoding, binary_encoding.rs:35-41. -/
def lowerHexFixed (byteLen : ℕ) (bytes : Bytes) : Res Unit Bytes := encodeStrUnwrap hexEncodeLower (byteLen * 2) bytes

/-- `UpperHex::fmt` for a fixed length encoding, binary_encoding.rs:43-49. -/
def upperHexFixed (byteLen : ℕ) (bytes : Bytes) : Res Unit Bytes := encodeStrUnwrap hexEncodeUpper (byteLen * 2) bytes

/-- `LowerHex::fmt` for a variable length encoding, binary_encoding.rs:188-195. -/
def lowerHexVar (bytes : Bytes) : Res Unit Bytes := encodeStrUnwrap hexEncodeLower (bytes.length * 2) bytes

/-- `UpperHex::fmt` for a variable length encoding, binary_encoding.rs:197-204. -/
def upperHexVar (bytes : Bytes) : Res Unit Bytes := encodeStrUnwrap hexEncodeUpper (bytes.length * 2) bytes

/-- `LowerHex` of `SecNonce` (nonces.rs:728). -/
def SecNonce.lowerHex (self : SecNonce) : Res Unit Bytes := lowerHexFixed 64 self.toBytes

/-- `UpperHex` of `SecNonce` (nonces.rs:728). -/
def SecNonce.upperHex (self : SecNonce) : Res Unit Bytes := upperHexFixed 64 self.toBytes

/-- `LowerHex` of `PubNonce` (nonces.rs:729). -/
def PubNonce.lowerHex (self : PubNonce) : Res Unit Bytes := lowerHexFixed 66 self.toBytes

/-- `UpperHex` of `PubNonce` (nonces.rs:729). -/
def PubNonce.upperHex (self : PubNonce) : Res Unit Bytes := upperHexFixed 66 self.toBytes

/-- `Display` of `PubNonce` (nonces.rs:733 and binary_encoding.rs:284-295). -/
def PubNonce.displayHex (self : PubNonce) : Res Unit Bytes := self.lowerHex

/-- `LowerHex` of `AggNonce` (nonces.rs:730). -/
def AggNonce.lowerHex (self : AggNonce) : Res Unit Bytes := lowerHexFixed 66 self.toBytes

/-- `UpperHex` of `AggNonce` (nonces.rs:730). -/
def AggNonce.upperHex (self : AggNonce) : Res Unit Bytes := upperHexFixed 66 self.toBytes

/-- `Display` of `AggNonce` (nonces.rs:734 and binary_encoding.rs:284-295). -/
def AggNonce.displayHex (self : AggNonce) : Res Unit Bytes := self.lowerHex

/-- `LowerHex` of `CompactSignature` (signature.rs:322). -/
def CompactSignature.lowerHex (self : CompactSignature) : Res Unit Bytes := lowerHexFixed 64 self.toBytes

/-- `UpperHex` of `CompactSignature` (signature.rs:322). -/
def CompactSignature.upperHex (self : CompactSignature) : Res Unit Bytes := upperHexFixed 64 self.toBytes

/-- `Display` of `CompactSignature` (signature.rs:326 and binary_encoding.rs:284-295). -/
def CompactSignature.displayHex (self : CompactSignature) : Res Unit Bytes := self.lowerHex

/-- `LowerHex` of `LiftedSignature` (signature.rs:323). -/
def LiftedSignature.lowerHex (self : LiftedSignature) : Res Unit Bytes := lowerHexFixed 64 self.toBytes

/-- `UpperHex` of `LiftedSignature` (signature.rs:323). -/
def LiftedSignature.upperHex (self : LiftedSignature) : Res Unit Bytes := upperHexFixed 64 self.toBytes

/-- `Display` of `LiftedSignature` (signature.rs:327 and binary_encoding.rs:284-295). -/
def LiftedSignature.displayHex (self : LiftedSignature) : Res Unit Bytes := self.lowerHex

/-- `LowerHex` of `AdaptorSignature` (signature.rs:324). -/
def AdaptorSignature.lowerHex (self : AdaptorSignature) : Res Unit Bytes := lowerHexFixed 65 self.toBytes

/-- `UpperHex` of `AdaptorSignature` (signature.rs:324). -/
def AdaptorSignature.upperHex (self : AdaptorSignature) : Res Unit Bytes := upperHexFixed 65 self.toBytes

/-- `Display` of `AdaptorSignature` (signature.rs:328 and binary_encoding.rs:284-295). -/
def AdaptorSignature.displayHex (self : AdaptorSignature) : Res Unit Bytes := self.lowerHex

/-- `LowerHex` of `KeyAggContext` (key_agg.rs:632). -/
def KeyAggContext.lowerHex (self : KeyAggContext) : Res Unit Bytes := lowerHexVar self.toBytes

/-- `UpperHex` of `KeyAggContext` (key_agg.rs:632). -/
def KeyAggContext.upperHex (self : KeyAggContext) : Res Unit Bytes := upperHexVar self.toBytes

/-- `Display` of `KeyAggContext` (key_agg.rs:633 and binary_encoding.rs:284-295). -/
def KeyAggContext.displayHex (self : KeyAggContext) : Res Unit Bytes := self.lowerHex

/-- `TryFrom<&[u8; 97]> for SecNonce`, binary_encoding.rs:97-109 and nonces.rs:728. -/
def SecNonce.tryFromMax (bytes : Arr 97) : Res DecodeError SecNonce := SecNonce.fromBytes bytes.1

end Verif
