import Verif.Model.Bip340

/-!
# `src/deterministic.rs`
-/

namespace Verif

/-- `[b; 32]`, deterministic.rs:41-42. -/
def rep32 (b : UInt8) : Arr 32 := ⟨List.replicate 32 b, List.length_replicate⟩

/-- `hmac_sha256`, deterministic.rs:24-30, with the crate `hmac` as it treats a key of 32 bytes: the key filled up with
zeros to a block of 64 bytes. -/
def hmac (H : Hash) (key : Arr 32) (msg : Bytes) : Arr 32 :=
  let k := key.1 ++ List.replicate 32 0
  H (k.map (· ^^^ 0x5c) ++ (H (k.map (· ^^^ 0x36) ++ msg)).1)

/-- The `loop` of `derive_nonce_rfc6979`, deterministic.rs:67-82. `none` means that the loop
runs for ever. -/
def rfc6979Loop (H : Hash) (K V : Arr 32) : Option Scalar :=
  let V := hmac H K V.1
  match parseScalar V.1 with
  | some k => some k
  | none =>
    let K := hmac H K (V.1 ++ [0])
    let V := hmac H K V.1
    rfc6979Loop H K V
partial_fixpoint

/-- The state `(K, V)` when the loop is entered, deterministic.rs:37-65. -/
def rfc6979Init (H : Hash) (seckey : Scalar) (message : Bytes) : Arr 32 × Arr 32 :=
  let h1 := H message
  let V := rep32 1
  let K := rep32 0
  let K := hmac H K (V.1 ++ [0] ++ (serScalar seckey.1).1 ++ h1.1)
  let V := hmac H K V.1
  let K := hmac H K (V.1 ++ [1] ++ (serScalar seckey.1).1 ++ h1.1)
  let V := hmac H K V.1
  (K, V)

/-- `derive_nonce_rfc6979`, deterministic.rs:34-83. -/
def deriveNonceRfc6979 (H : Hash) (seckey : Scalar) (message : Bytes) : Option Scalar :=
  let KV := rfc6979Init H seckey message
  rfc6979Loop H KV.1 KV.2

/-- `deterministic::adaptor::sign_solo`, deterministic.rs:91-99. -/
def deterministicSignSoloAdaptor (H : Hash) (seckey : Scalar) (message : Bytes)
    (adaptorPoint : MaybePoint) : Option AdaptorSignature :=
  match deriveNonceRfc6979 H seckey message with
  | none => none
  | some k => some (signSoloAdaptor H seckey message (serScalar k.1) adaptorPoint)

/-- `deterministic::sign_solo`, deterministic.rs:103-110. -/
def deterministicSignSolo {ε : Type} (H : Hash) (seckey : Scalar) (message : Bytes) :
    Option (Res ε LiftedSignature) :=
  match deriveNonceRfc6979 H seckey message with
  | none => none
  | some k => some (signSolo H seckey message (serScalar k.1))

end Verif
