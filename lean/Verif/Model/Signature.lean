import Verif.Model.Signing

/-!
# `src/signature.rs`

Conversions to types of other crates (signature.rs:353-432) are in `Model/Conversions`.
-/

namespace Verif

/-- `CompactSignature`, signature.rs:30-36. -/
structure CompactSignature where
  rx : Arr 32
  s : MaybeScalar
deriving DecidableEq

/-- `LiftedSignature`, signature.rs:79-82. The fields are private to the crate. -/
structure LiftedSignature where
  R : Point
  s : MaybeScalar
deriving DecidableEq

/-- `AdaptorSignature`, signature.rs:158-161. -/
structure AdaptorSignature where
  R : MaybePoint
  s : MaybeScalar
deriving DecidableEq

namespace CompactSignature

/-- `CompactSignature::new`, signature.rs:40-45. -/
def new (R : Point) (s : MaybeScalar) : CompactSignature := ⟨xonly R.1, s⟩

/-- `lift_nonce`, signature.rs:49-52, and `TryFrom<CompactSignature> for LiftedSignature`,
signature.rs:340-342. -/
def liftNonce (self : CompactSignature) : Option LiftedSignature :=
  match liftX self.rx with
  | none => none
  | some R => some ⟨R, self.s⟩

/-- `to_bytes`, signature.rs:261-266. -/
def toBytes (self : CompactSignature) : Bytes := self.rx.1 ++ (serScalar self.s).1

/-- `from_bytes`, signature.rs:270-277. -/
def fromBytes (b : Bytes) : Res DecodeError CompactSignature := do
  if b.length ≠ 64 then .err (.badLength b.length)
  else
    let rxb ← slice b 0 32
    let rx : Arr 32 ← Res.unwrap (if h : rxb.length = 32 then some ⟨rxb, h⟩ else none)
    let sb ← slice b 32 b.length
    let s ← Res.okOr (parseMaybeScalar sb) .invalidScalar
    return ⟨rx, s⟩

end CompactSignature

namespace AdaptorSignature

/-- `AdaptorSignature::new`, signature.rs:168-173. -/
def new (R : MaybePoint) (s : MaybeScalar) : AdaptorSignature := ⟨R, s⟩

/-- `encrypt`, signature.rs:196-202. -/
def encrypt (self : AdaptorSignature) (adaptorSecret : Scalar) : AdaptorSignature :=
  ⟨self.R - adaptorSecret.1 • G, self.s - adaptorSecret.1⟩

end AdaptorSignature

namespace LiftedSignature

/-- `LiftedSignature::new`, signature.rs:90-95. -/
def new (R : Point) (s : MaybeScalar) : LiftedSignature := ⟨toEvenY R, s⟩

/-- `compact`, signature.rs:99-101, and `From<LiftedSignature> for CompactSignature`,
signature.rs:347-349. -/
def compact (self : LiftedSignature) : CompactSignature := CompactSignature.new self.R self.s

/-- `encrypt`, signature.rs:104-106. -/
def encrypt (self : LiftedSignature) (adaptorSecret : Scalar) : AdaptorSignature :=
  (AdaptorSignature.new self.R.1 self.s).encrypt adaptorSecret

/-- `unzip`, signature.rs:131-137. -/
def unzip (self : LiftedSignature) : Point × MaybeScalar := (self.R, self.s)

/-- `to_bytes`, signature.rs:286-288. -/
def toBytes (self : LiftedSignature) : Bytes := self.compact.toBytes

/-- `from_bytes`, signature.rs:292-295. -/
def fromBytes (b : Bytes) : Res DecodeError LiftedSignature := do
  let compactSignature ← CompactSignature.fromBytes b
  Res.okOr compactSignature.liftNonce .invalidPoint

end LiftedSignature

namespace AdaptorSignature

/-- `adapt`, signature.rs:185-193. -/
def adapt (self : AdaptorSignature) (adaptorSecret : MaybeScalar) : Option LiftedSignature :=
  match notInf (self.R + adaptorSecret • G) with
  | none => none
  | some adaptedNonce =>
    let adaptedSig := self.s + negIf (isOdd adaptedNonce.1) adaptorSecret
    some (LiftedSignature.new adaptedNonce adaptedSig)

/-- `reveal_secret`, signature.rs:208-222. -/
def revealSecret (self : AdaptorSignature) (finalSig : LiftedSignature) : Option MaybeScalar :=
  let t := finalSig.s - self.s
  let T := t • G
  if T = finalSig.R.1 - self.R then some t
  else if T = finalSig.R.1 + self.R then some (-t)
  else none

/-- `unzip`, signature.rs:243-249. -/
def unzip (self : AdaptorSignature) : MaybePoint × MaybeScalar := (self.R, self.s)

/-- `to_bytes`, signature.rs:303-308. -/
def toBytes (self : AdaptorSignature) : Bytes := (serPoint self.R).1 ++ (serScalar self.s).1

/-- `from_bytes`, signature.rs:312-319. -/
def fromBytes (b : Bytes) : Res DecodeError AdaptorSignature := do
  if b.length ≠ 65 then .err (.badLength b.length)
  else
    let rb ← slice b 0 33
    let R ← Res.okOr (parseMaybePoint rb) .invalidPoint
    let sb ← slice b 33 b.length
    let s ← Res.okOr (parseMaybeScalar sb) .invalidScalar
    return ⟨R, s⟩

end AdaptorSignature

end Verif
