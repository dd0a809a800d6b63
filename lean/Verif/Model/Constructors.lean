import Verif.Model.Nonces

/-!
# Constructors of nonces, and random number generators

`src/nonces.rs`. The generator of the caller (`rand::RngCore + rand::CryptoRng`) is a state machine. `Scalar::random` belongs
to the crate `secp`; it is a step of the generator that yields a non-zero scalar. That it stops is assumed.
-/

namespace Verif

/-- A random number generator with states `σ`: what nonces.rs:35-45 and 485-495 use of `rand::RngCore`. -/
structure Rng (σ : Type) where
  /-- `fill_bytes` on an array of 32 bytes, nonces.rs:42. -/
  fill32 : σ → Arr 32 × σ
  /-- `Scalar::random`, nonces.rs:492-493. -/
  scalar : σ → Scalar × σ

/-- `NonceSeed::from` for byte arrays, nonces.rs:21-33. -/
def NonceSeed.fromArray (bytes : Arr 32) : Arr 32 := bytes

/-- `NonceSeed::from` for generators, nonces.rs:35-45. -/
def NonceSeed.fromRng {σ : Type} (rng : Rng σ) (s : σ) : Arr 32 × σ := rng.fill32 s

namespace SecNonce

/-- `SecNonce::new`, nonces.rs:431-436. -/
def new (k1 k2 : Scalar) : SecNonce := ⟨k1, k2⟩

/-- `SecNonce::build` with a seed, nonces.rs:441-443. -/
def builder (nonceSeed : Arr 32) : SecNonceBuilder := SecNonceBuilder.new nonceSeed

/-- `SecNonce::build` with a generator, nonces.rs:441-443 and 35-45. -/
def builderRng {σ : Type} (rng : Rng σ) (s : σ) : SecNonceBuilder × σ :=
  let seed := NonceSeed.fromRng rng s
  (SecNonceBuilder.new seed.1, seed.2)

/-- `SecNonce::generate` with a generator, nonces.rs:461-474 and 35-45. -/
def generateRng {σ ε : Type} (H : Hash) (rng : Rng σ) (s : σ) (seckey : Scalar) (aggregatedPubkey : Point)
    (message extraInput : Bytes) : Res ε SecNonce × σ :=
  let seed := NonceSeed.fromRng rng s
  (generate H seed.1 seckey aggregatedPubkey message extraInput, seed.2)

/-- `SecNonce::random`, nonces.rs:487-495. -/
def random {σ : Type} (rng : Rng σ) (s : σ) : SecNonce × σ :=
  let k1 := rng.scalar s
  let k2 := rng.scalar k1.2
  (⟨k1.1, k2.1⟩, k2.2)

end SecNonce

/-- `PubNonce::new`, nonces.rs:523-528. -/
def PubNonce.new (R1 R2 : Point) : PubNonce := ⟨R1, R2⟩

/-- `AggNonce::new`, nonces.rs:553-558. `Into<MaybePoint>` is the identity or the inclusion of `Point`. -/
def AggNonce.new (R1 R2 : MaybePoint) : AggNonce := ⟨R1, R2⟩

end Verif
