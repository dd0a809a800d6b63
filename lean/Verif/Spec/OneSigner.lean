import Verif.Spec.Uniform
import Verif.Spec.Extract
import Verif.Spec.Forger
import Verif.Model.SigAgg

/-!
# The signature of a group beside that of one signer

Used by `Props/OneSigner`. The answers of the hash function to what gives nonce coefficients are drawn, and so are the nonces of
one member. Whoever is to tell the signature of the group from that of a single signer is given the hash function and the
signature.
-/

namespace Verif

open Classical in
/-- The hash function that has the answers `B` for the nonce coefficients of the group key `Q` and the message `msg`, and those
of `H` for all else. -/
noncomputable def Spec.withCoefficients (H : Hash) (Q : Point) (msg : Bytes) (B : AggNonce → Arr 32) : Hash := fun x =>
  if h : ∃ an, x = Spec.noncecoefQuery an Q msg then B h.choose else H x

/-- Every member makes a partial signature for the sum of all public nonces, and these aggregate to `sig`. -/
def Spec.GroupSigns (H : Hash) (ctx : KeyAggContext) (sks : List Scalar) (nonces : List SecNonce) (msg : Bytes)
    (sig : LiftedSignature) : Prop :=
  ∃ sigs : List PartialSignature,
    List.Forall₂ (fun (m : Scalar × SecNonce) s =>
      signPartial H ctx m.1 m.2 (AggNonce.sum (nonces.map SecNonce.publicNonce)) msg = .ok s) (sks.zip nonces) sigs ∧
    aggregatePartialSignatures H ctx (AggNonce.sum (nonces.map SecNonce.publicNonce)) sigs msg = .ok sig

/-- Every member makes a partial adaptor signature for the point of the adaptor secret `t`; these aggregate, and the aggregate
is completed with `t` to `sig`. -/
def Spec.GroupSignsAdapted (H : Hash) (ctx : KeyAggContext) (sks : List Scalar) (nonces : List SecNonce) (t : MaybeScalar)
    (msg : Bytes) (sig : LiftedSignature) : Prop :=
  ∃ sigs : List PartialSignature,
    List.Forall₂ (fun (m : Scalar × SecNonce) s =>
      signPartialAdaptor H ctx m.1 m.2 (AggNonce.sum (nonces.map SecNonce.publicNonce)) (t • Spec.G) msg = .ok s)
      (sks.zip nonces) sigs ∧
    ∃ asig, aggregatePartialAdaptorSignatures H ctx (AggNonce.sum (nonces.map SecNonce.publicNonce)) (t • Spec.G) sigs msg
      = .ok asig ∧ asig.adapt t = some sig

/-- The BIP340 signature that is made with the secret key `d` and the secret nonce `k`. -/
def Spec.signWith (H : Hash) (d k : Scalar) (msg : Bytes) : Bytes :=
  Spec.xbytes (k.1 • Spec.G) ++ Spec.bytes_from_int
    (Spec.sgn (k.1 • Spec.G) * k.1 + Spec.challenge H (k.1 • Spec.G) (d.1 • Spec.G) msg * (Spec.sgn (d.1 • Spec.G) * d.1)).val

/-- The hash function that has the answers `a.1` and `a.2` for the two nonces of a builder. -/
def Spec.withNonces (H : Hash) (b : SecNonceBuilder) (a : Arr 32 × Arr 32) : Hash :=
  (H.answering (Spec.nonceQuery H b 0) a.1).answering (Spec.nonceQuery H b 1) a.2

end Verif
