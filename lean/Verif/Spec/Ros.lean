import Verif.Spec.Claims
import Verif.Spec.Rogue

/-!
# Forging with many adaptor sessions open at once

In 256 sessions with one signer, the others choose one of two adaptor points after the nonces are fixed. The nonce
coefficients do not depend on this choice, the challenges do. So the bits of the challenge of another message can be spelled
by the choices (Benhamouda, Lepoint, Loss, Orrù, Raykova: On the (in)security of ROS). All that is computed here is computed
from public data, and from the partial signatures in the end. Used by `Props/Ros`.
-/

namespace Verif.Spec

/-- A session before the adaptor point is chosen. -/
structure OpenSession where
  /-- The public nonce of the signer. -/
  pubnonce : PubNonce
  aggnonce : AggNonce
  message : Bytes
  /-- The two adaptor points to choose from. -/
  points : Bool → MaybePoint

/-- A session where the adaptor points to choose from make the adapted nonce `G` or `-G`. -/
def OpenSession.flipping (H : Hash) (Q : Point) (pubnonce : PubNonce) (aggnonce : AggNonce) (message : Bytes) : OpenSession where
  pubnonce := pubnonce
  aggnonce := aggnonce
  message := message
  points := fun c => (if c then -Verif.G else Verif.G) - (aggnonce.finalNonce (aggnonce.nonceCoefficient H Q message)).1

/-- What is known to the attackers: the aggregated key `Q = A·G + B·P`, where `P` is the signer's key, the multiple `u` of `P`
that takes part in signatures, and the sessions. -/
structure Attack where
  H : Hash
  Q : Point
  P : Point
  A : MaybeScalar
  B : MaybeScalar
  u : MaybeScalar
  sessions : Fin 256 → OpenSession
  /-- The message to forge a signature for. -/
  message : Bytes

namespace Attack

/-- What is observed in session `i` with the adaptor point chosen by `c`. -/
def observed (X : Attack) (i : Fin 256) (c : Bool) : Observed :=
  observe X.H X.Q (X.sessions i).aggnonce ((X.sessions i).points c) (X.sessions i).message

/-- The nonce of the signer in session `i`; it does not depend on the choice. -/
def signerNonce (X : Attack) (i : Fin 256) : MaybePoint :=
  (X.sessions i).pubnonce.R1.1 + (X.observed i false).b • (X.sessions i).pubnonce.R2.1

/-- The weight of session `i`. -/
def weight (X : Attack) (i : Fin 256) : MaybeScalar := 2 ^ (i : ℕ) / ((X.observed i true).e - (X.observed i false).e)

/-- The nonce of the forged signature, known before any choice is made. -/
def nonce (X : Attack) : MaybePoint :=
  ∑ i, X.weight i • X.signerNonce i + (∑ i, X.weight i * (X.observed i false).e * X.u) • X.P.1

/-- The number to be spelled. -/
def target (X : Attack) : MaybeScalar :=
  sgn X.nonce * challenge X.H X.nonce X.Q.1 X.message * sgn X.Q.1 * X.B / X.u

/-- Which adaptor point is chosen in session `i`. -/
def choice (X : Attack) (i : Fin 256) : Bool := X.target.val.testBit i

/-- The adaptor point of session `i`. -/
def adaptorPoint (X : Attack) (i : Fin 256) : MaybePoint := (X.sessions i).points (X.choice i)

/-- The scalar of the forged signature, from the partial signatures received. -/
def scalar (X : Attack) (sigs : Fin 256 → MaybeScalar) : MaybeScalar :=
  sgn X.nonce * ∑ i, X.weight i * ((X.observed i (X.choice i)).sign * sigs i)
    + challenge X.H X.nonce X.Q.1 X.message * sgn X.Q.1 * X.A

end Attack

/-- What is known to attackers who made the keys of the others as the combinations `α K·G + β K·P` of `G` and the key `P` of
the signer, whose coefficient is `a`. -/
def attack (H : Hash) (ctx : KeyAggContext) (P : Point) (α β : Point → MaybeScalar) (a : MaybeScalar)
    (sessions : Fin 256 → OpenSession) (message : Bytes) : Attack where
  H := H
  Q := ctx.aggregatedPubkey
  P := P
  A := (if ctx.parityAcc then -1 else 1) * weighted H ctx.pubkeys α + ctx.tweakAcc
  B := (if ctx.parityAcc then -1 else 1) * weighted H ctx.pubkeys β
  u := a * keySign ctx
  sessions := sessions
  message := message

end Verif.Spec
