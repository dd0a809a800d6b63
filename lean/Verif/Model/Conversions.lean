import Verif.Model.Signature

/-!
# `src/signature.rs`, conversions from and to the types of other crates

* `secp256k1::schnorr::Signature` is a wrapper of any 64 bytes (`from_byte_array`, `to_byte_array`).
* `k256::PublicKey` is a point other than infinity, `k256::AffinePoint` any point, `k256::Scalar` an integer mod `n`,
  `k256::WideBytes` an array of 64 bytes.
-/

namespace Verif

/-- `CompactSignature::to_bytes` as the array it returns, signature.rs:261-266. -/
def CompactSignature.toArr (self : CompactSignature) : Arr 64 :=
  ⟨self.rx.1 ++ (serScalar self.s).1, by rw [List.length_append, self.rx.2, (serScalar self.s).2]⟩

/-- `LiftedSignature::to_bytes` as the array it returns, signature.rs:286-288. -/
def LiftedSignature.toArr (self : LiftedSignature) : Arr 64 := self.compact.toArr

/-- `TryFrom<secp256k1::schnorr::Signature> for CompactSignature`, signature.rs:357-362. -/
def CompactSignature.ofSecp256k1 (signature : Arr 64) : Res DecodeError CompactSignature :=
  CompactSignature.fromBytes signature.1

/-- `TryFrom<secp256k1::schnorr::Signature> for LiftedSignature`, signature.rs:364-369. -/
def LiftedSignature.ofSecp256k1 (signature : Arr 64) : Res DecodeError LiftedSignature :=
  LiftedSignature.fromBytes signature.1

/-- `From<CompactSignature> for secp256k1::schnorr::Signature`, signature.rs:371-375. -/
def CompactSignature.toSecp256k1 (signature : CompactSignature) : Arr 64 := signature.toArr

/-- `From<LiftedSignature> for secp256k1::schnorr::Signature`, signature.rs:377-381. -/
def LiftedSignature.toSecp256k1 (signature : LiftedSignature) : Arr 64 := signature.toArr

/-- `From<(k256::PublicKey, k256::Scalar)> for CompactSignature`, signature.rs:388-392. -/
def CompactSignature.ofK256 (pair : Point × MaybeScalar) : CompactSignature := CompactSignature.new pair.1 pair.2

/-- `From<(k256::PublicKey, k256::Scalar)> for LiftedSignature`, signature.rs:394-398. -/
def LiftedSignature.ofK256 (pair : Point × MaybeScalar) : LiftedSignature := LiftedSignature.new pair.1 pair.2

/-- `TryFrom<CompactSignature> for (k256::PublicKey, k256::Scalar)`, signature.rs:400-405. `none` is
`InvalidPointBytes`. -/
def CompactSignature.toK256 (signature : CompactSignature) : Option (Point × MaybeScalar) :=
  match signature.liftNonce with
  | none => none
  | some lifted => some lifted.unzip

/-- `From<LiftedSignature> for (k256::PublicKey, k256::Scalar)`, signature.rs:407-411. -/
def LiftedSignature.toK256 (signature : LiftedSignature) : Point × MaybeScalar := signature.unzip

/-- `From<LiftedSignature> for (k256::AffinePoint, k256::Scalar)`, signature.rs:413-417. -/
def LiftedSignature.toK256Affine (signature : LiftedSignature) : MaybePoint × MaybeScalar :=
  (signature.unzip.1.1, signature.unzip.2)

/-- `From<CompactSignature> for k256::WideBytes`, signature.rs:419-424. -/
def CompactSignature.toWideBytes (signature : CompactSignature) : Arr 64 := signature.toArr

/-- `From<LiftedSignature> for k256::WideBytes`, signature.rs:426-431. -/
def LiftedSignature.toWideBytes (signature : LiftedSignature) : Arr 64 := signature.toArr

end Verif
