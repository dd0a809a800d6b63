import Verif.Spec.Cma
import Verif.Model.Signing

/-!
# What the other members of a group see of a signer in one session

The signer's nonces are drawn, and so are the answers of the hash function that give the nonce coefficient and the
challenge. The others reply to the public nonce with an aggregated nonce, an adaptor point and a message, and receive a
partial signature. Used by `Props/Views`.
-/

namespace Verif

/-- The hash function that answers what begins with the tag of nonce coefficients with `hb`, and what begins with the tag of
challenges with `he`. -/
def Spec.sessionHash (H : Hash) (hb he : Arr 32) : Hash := fun x =>
  if Spec.taggedInput "MuSig/noncecoef" [] <+: x then hb
  else if Spec.taggedInput "BIP0340/challenge" [] <+: x then he else H x

/-- What the others reply, given all they have seen. -/
structure Spec.Reply where
  aggnonce : AggNonce
  adaptorPoint : MaybePoint
  message : Bytes

/-- The nonce of the session, if the nonce coefficient is hashed to `hb`. -/
def Spec.Reply.nonce (r : Spec.Reply) (hb : Arr 32) : MaybePoint :=
  let R := r.aggnonce.R1 + reduceFrom hb • r.aggnonce.R2
  (if R = 0 then Spec.G else R) + r.adaptorPoint

/-- What the others have seen in the end: the public nonce, the two answers of the hash function, and the partial
signature. -/
structure Spec.View where
  pubnonce : PubNonce
  hb : Arr 32
  he : Arr 32
  sig : MaybeScalar

/-- The view of a session with the signer, who uses the nonces `sn`. -/
def Spec.signerView (H : Hash) (ctx : KeyAggContext) (sk : Scalar) (reply : PubNonce → Arr 32 → Arr 32 → Spec.Reply)
    (p : SecNonce × Arr 32 × Arr 32) : Option Spec.View :=
  let r := reply p.1.publicNonce p.2.1 p.2.2
  match signPartialAdaptor (Spec.sessionHash H p.2.1 p.2.2) ctx sk p.1 r.aggnonce r.adaptorPoint r.message with
  | .ok s => some ⟨p.1.publicNonce, p.2.1, p.2.2, s⟩
  | _ => none

/-- What is drawn by the simulator: the answers of the hash function, the partial signature, the second nonce, and a guess
of whether nonces will be negated. -/
structure Spec.Draws where
  hb : Arr 32
  he : Arr 32
  sig : MaybeScalar
  k2 : Scalar
  neg : Bool

/-- The public nonce for which the signature drawn will be valid, unless it comes out as infinity. The simulator knows the
signer's public key `P` and its coefficient `a` only. -/
def Spec.simulatedNonce (ctx : KeyAggContext) (P : Point) (a : MaybeScalar) (p : Spec.Draws) : Option PubNonce :=
  let b := reduceFrom p.hb
  let e := reduceFrom p.he
  let g : MaybeScalar := if ctx.parityAcc then -1 else 1
  let X := p.sig • G - (e * a * Spec.sgn ctx.aggregatedPubkey.1 * g) • P.1
  let R2 := mulG p.k2
  match notInf ((if p.neg then -X else X) - b • R2.1) with
  | none => none
  | some R1 => some ⟨R1, R2⟩

/-- The view made up by the simulator. It fails if the first nonce comes out as infinity or the guess is wrong. -/
def Spec.simulatedView (ctx : KeyAggContext) (P : Point) (a : MaybeScalar)
    (reply : PubNonce → Arr 32 → Arr 32 → Spec.Reply) (p : Spec.Draws) : Option Spec.View :=
  match Spec.simulatedNonce ctx P a p with
  | none => none
  | some pn =>
    if Spec.has_even_y ((reply pn p.hb p.he).nonce p.hb) = !p.neg then some ⟨pn, p.hb, p.he, p.sig⟩ else none

end Verif
