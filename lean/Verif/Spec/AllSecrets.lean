import Verif.Spec.OneSigner

/-!
# Decrypting a signature without one of the secrets

Used by `Props/AllSecrets`. A signature is encrypted by several secrets in turn. Somebody who knows all of them but one is given
the result and the point of the missing secret.
-/

namespace Verif

/-- The signature `sig`, encrypted by the secrets one after the other: `sig.encrypt(t1).encrypt(t2)…`. -/
def Spec.locked (sig : LiftedSignature) : List Scalar → AdaptorSignature
  | [] => AdaptorSignature.new sig.R.1 sig.s
  | t :: ts => encryptAll (sig.encrypt t) ts

/-- `A` is given the signature on `msg` with the secret key `d` and the secret nonce `p.1`, encrypted by the secrets `before`,
`p.2` and `after`, and the point of `p.2`. It returns the signature. (The secret key, the message and all other secrets are fixed,
so `A` may depend on them.) -/
def Spec.Decrypts (H : Hash) (d : Scalar) (msg : Bytes) (before after : List Scalar) (A : AdaptorSignature → Point → Bytes)
    (p : Scalar × Scalar) : Prop :=
  ∃ sig, LiftedSignature.fromBytes (Spec.signWith H d p.1 msg) = .ok sig ∧
    A (Spec.locked sig (before ++ p.2 :: after)) (mulG p.2) = Spec.signWith H d p.1 msg

/-- How to compute the discrete logarithm of `T` by means of `A`, with a random scalar `j`: make the adaptor signature with the
nonce `j` for the sum of all adaptor points, the last one being `T`; the scalar of what `A` returns gives the logarithm. -/
noncomputable def Spec.missingSecret (H : Hash) (d : Scalar) (msg : Bytes) (before after : List Scalar)
    (A : AdaptorSignature → Point → Bytes) (T : Point) (j : MaybeScalar) : MaybeScalar :=
  let known := ((before ++ after).map (·.1)).sum
  let s := j + Spec.challenge H (j • Spec.G + known • Spec.G + T.1) (d.1 • Spec.G) msg * (Spec.sgn (d.1 • Spec.G) * d.1)
  (Spec.int_from_bytes ((A ⟨j • Spec.G, s⟩ T).drop 32) : MaybeScalar) - s - known

end Verif
