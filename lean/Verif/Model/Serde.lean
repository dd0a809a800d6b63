import Verif.Model.Hex

/-!
# The `serde` implementations of `src/binary_encoding.rs`

`serdect::{array,slice}::serialize_hex_lower_or_bin` write a lower-case hex string, and
`serdect::slice::deserialize_hex_or_bin` decodes a hex string of either case into a buffer. The string is what is put
into, say, a JSON document; quoting and escaping are the format's. The errors are those of the format, so there is
only one of them here.

Binary formats follow at the end. There the values are passed to the format by `serialize_bytes` or, for arrays and
depending on the version of `serdect`, as a tuple of bytes, and taken from it by `deserialize_byte_buf`, whose visitor
knows byte strings only.
-/

namespace Verif

/-- `Serialize::serialize`, binary_encoding.rs:144-149 (fixed length) and 258-263 (variable length), for a value with
the encoding `bytes`. -/
def serdeSerialize (bytes : Bytes) : Bytes := hexEncodeLower bytes

/-- `Deserialize::deserialize` for a fixed length encoding, binary_encoding.rs:152-170; `bufLen` is `$max_byte_len` if
there is one, and `$byte_len` otherwise. -/
def serdeDeserializeFixed {α : Type} (bufLen : ℕ) (fromBytes : Bytes → Res DecodeError α) (hex : Bytes) : Res Unit α := do
  let bytes ← (hexDecode bufLen hex).mapErr fun _ => ()
  (fromBytes bytes).mapErr fun _ => ()

/-- `Deserialize::deserialize` for a variable length encoding, binary_encoding.rs:266-278. -/
def serdeDeserializeVar {α : Type} (fromBytes : Bytes → Res DecodeError α) (hex : Bytes) : Res Unit α := do
  let bytes ← (hexDecodeVec hex).mapErr fun _ => ()
  (fromBytes bytes).mapErr fun _ => ()

/-- `SecNonce` (nonces.rs:728: byte length 64, maximum 97). -/
def SecNonce.serdeDeserialize : Bytes → Res Unit SecNonce := serdeDeserializeFixed 97 SecNonce.fromBytes

/-- `PubNonce` (nonces.rs:729). -/
def PubNonce.serdeDeserialize : Bytes → Res Unit PubNonce := serdeDeserializeFixed 66 PubNonce.fromBytes

/-- `AggNonce` (nonces.rs:730). -/
def AggNonce.serdeDeserialize : Bytes → Res Unit AggNonce := serdeDeserializeFixed 66 AggNonce.fromBytes

/-- `CompactSignature` (signature.rs:322). -/
def CompactSignature.serdeDeserialize : Bytes → Res Unit CompactSignature :=
  serdeDeserializeFixed 64 CompactSignature.fromBytes

/-- `LiftedSignature` (signature.rs:323). -/
def LiftedSignature.serdeDeserialize : Bytes → Res Unit LiftedSignature :=
  serdeDeserializeFixed 64 LiftedSignature.fromBytes

/-- `AdaptorSignature` (signature.rs:324). -/
def AdaptorSignature.serdeDeserialize : Bytes → Res Unit AdaptorSignature :=
  serdeDeserializeFixed 65 AdaptorSignature.fromBytes

/-- `KeyAggContext` (key_agg.rs:632). -/
def KeyAggContext.serdeDeserialize (H : Hash) : Bytes → Res Unit KeyAggContext :=
  serdeDeserializeVar (KeyAggContext.fromBytes H)

/-- What a binary format is given to write. A format that returns what was written returns the same kind: a tuple has
no length prefix or another type tag (binary_encoding.rs:144-149, 166). -/
inductive Token
  | bytes (b : Bytes)
  | tuple (b : Bytes)
  deriving DecidableEq

/-- How `serdect::array::serialize_hex_lower_or_bin` passes an array to a binary format, which depends on the version
of `serdect` and is not decided by this crate (binary_encoding.rs:150). -/
inductive ArrayMode
  | asBytes
  | asTuple
  deriving DecidableEq

/-- `Serialize::serialize` of a fixed length encoding for a binary format, binary_encoding.rs:144-149. -/
def serdeSerializeFixedBin : ArrayMode → Bytes → Token
  | .asBytes, bytes => .bytes bytes
  | .asTuple, bytes => .tuple bytes

/-- `Serialize::serialize` of a variable length encoding for a binary format, binary_encoding.rs:258-263. -/
def serdeSerializeVarBin (bytes : Bytes) : Token := .bytes bytes

/-- `Deserialize::deserialize` of a fixed length encoding for a binary format, binary_encoding.rs:152-170:
`serdect::slice::deserialize_hex_or_bin` copies at most `bufLen` bytes into the buffer. -/
def serdeDeserializeFixedBin {α : Type} (bufLen : ℕ) (fromBytes : Bytes → Res DecodeError α) : Token → Res Unit α
  | .bytes bytes => if bufLen < bytes.length then .err () else (fromBytes bytes).mapErr fun _ => ()
  | .tuple _ => .err ()

/-- `Deserialize::deserialize` of a variable length encoding for a binary format, binary_encoding.rs:266-278. -/
def serdeDeserializeVarBin {α : Type} (fromBytes : Bytes → Res DecodeError α) : Token → Res Unit α
  | .bytes bytes => (fromBytes bytes).mapErr fun _ => ()
  | .tuple _ => .err ()

/-- `SecNonce` (nonces.rs:728: byte length 64, maximum 97). -/
def SecNonce.serdeDeserializeBin : Token → Res Unit SecNonce := serdeDeserializeFixedBin 97 SecNonce.fromBytes

/-- `PubNonce` (nonces.rs:729). -/
def PubNonce.serdeDeserializeBin : Token → Res Unit PubNonce := serdeDeserializeFixedBin 66 PubNonce.fromBytes

/-- `AggNonce` (nonces.rs:730). -/
def AggNonce.serdeDeserializeBin : Token → Res Unit AggNonce := serdeDeserializeFixedBin 66 AggNonce.fromBytes

/-- `CompactSignature` (signature.rs:322). -/
def CompactSignature.serdeDeserializeBin : Token → Res Unit CompactSignature :=
  serdeDeserializeFixedBin 64 CompactSignature.fromBytes

/-- `LiftedSignature` (signature.rs:323). -/
def LiftedSignature.serdeDeserializeBin : Token → Res Unit LiftedSignature :=
  serdeDeserializeFixedBin 64 LiftedSignature.fromBytes

/-- `AdaptorSignature` (signature.rs:324). -/
def AdaptorSignature.serdeDeserializeBin : Token → Res Unit AdaptorSignature :=
  serdeDeserializeFixedBin 65 AdaptorSignature.fromBytes

/-- `KeyAggContext` (key_agg.rs:632). -/
def KeyAggContext.serdeDeserializeBin (H : Hash) : Token → Res Unit KeyAggContext :=
  serdeDeserializeVarBin (KeyAggContext.fromBytes H)

end Verif
