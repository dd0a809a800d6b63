import Verif.Spec.OneSigner

/-!
# Many signatures of groups beside those of single signers

Used by `Props/ManySigs`. Any number of sessions of any groups; in each of them the nonces of one member are drawn. Whoever is to
tell the signatures from those of single signers is given the hash function and all of them.
-/

namespace Verif

/-- A session: the group and its secret keys, the nonces of the other members, the adaptor secret and the message. `d` is the
aggregated secret key. -/
structure Spec.GroupSession where
  ctx : KeyAggContext
  sks : List Scalar
  d : Scalar
  before : List SecNonce
  after : List SecNonce
  t : MaybeScalar
  msg : Bytes

/-- The secret keys are those of the group, and all but one of its members have nonces. -/
structure Spec.GroupSession.Fits (H : Hash) (s : Spec.GroupSession) : Prop where
  reachable : Reachable H s.ctx
  keys : s.ctx.pubkeys = s.sks.map mulG
  seckey : s.ctx.aggregatedSeckey s.sks = .ok s.d
  members : s.before.length + 1 + s.after.length = s.sks.length

/-- What a nonce coefficient of the session is computed from, after the nonces. -/
def Spec.GroupSession.subject (s : Spec.GroupSession) : Bytes := Spec.xbytes s.ctx.aggregatedPubkey.1 ++ s.msg

/-- What is hashed for a nonce coefficient. -/
def Spec.subjectQuery (an : AggNonce) (x : Bytes) : Bytes :=
  Spec.taggedInput "MuSig/noncecoef" (Spec.cbytes_ext an.R1 ++ Spec.cbytes_ext an.R2 ++ x)

open Classical in
/-- The hash function that has the answers `B` for the nonce coefficients of the subjects `S`, and those of `H` for all else. -/
noncomputable def Spec.withAllCoefficients (H : Hash) (S : Set Bytes) (B : AggNonce × S → Arr 32) : Hash := fun x =>
  if h : ∃ p : AggNonce × S, x = Spec.subjectQuery p.1 p.2 then B h.choose else H x

end Verif
