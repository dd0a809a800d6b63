import Verif.Spec.Claims
import Verif.Lemmas.Props.NonceReuse
import Verif.Lemmas.Props.Deterministic
import Verif.Spec.Extract
import Verif.Lemmas.Sgn

/-!
# Lemmas and example data for `Props/Solo`
-/

namespace Verif

/-- The equation of an adaptor signature, multiplied by the sign of the adapted nonce. -/
theorem signed_equation {H : Hash} (hH : TagsAgree H) {sk k : Scalar} {sig : AdaptorSignature} {msg : Bytes}
    {T : MaybePoint} (hR : sig.R = k.1 • G) (h : verifySingleAdaptor H (mulG sk) sig msg T = .ok ()) :
    Spec.sgn (sig.R + T) * sig.s = k.1
      + Spec.sgn (sig.R + T) * Spec.challenge H (sig.R + T) (mulG sk).1 msg * (Spec.sgn (mulG sk).1 * sk.1) := by
  rw [verifySingleAdaptor_eq_ok, toEvenY_val, ← sgn_smul, ← sgn_smul, ← spec_challenge hH, hR, mulG_val, ← mul_smul,
    ← mul_smul, ← mul_smul, ← add_smul, smul_G_inj, ← hR] at h
  rw [h]
  have h1 := sgn_mul_sgn (sig.R + T)
  rw [mulG_val]
  linear_combination (k.1) * h1

theorem stub_hmac (K : Arr 32) (m : Bytes) : hmac stubHash K m = serScalar 1 := by
  have h1 : (serScalar 1).1 = beBytes 32 1 := by
    unfold serScalar beArr
    rw [ZMod.val_one'' (by have := one_lt_orderN; omega)]
  apply Subtype.ext
  rw [h1]
  unfold hmac stubHash
  simp only
  rw [if_neg]
  have : ∀ (a b : Bytes), 64 ≤ a.length → ¬ (a ++ b).length < 32 := by
    intro a b h
    rw [List.length_append]; omega
  apply this
  simp [K.2]

theorem stub_derive (sk : Scalar) (msg : Bytes) : deriveNonceRfc6979 stubHash sk msg = some scalarOne := by
  have h : deriveNonceRfc6979 stubHash sk msg = some ⟨((1 : ℕ) : MaybeScalar), by norm_num⟩ := by
    apply derive_of_candidate
    rw [stub_hmac, Nat.cast_one]
  rw [h, Option.some.injEq]
  exact Subtype.ext Nat.cast_one

theorem stub_soloNonce (sk : Scalar) (msg : Bytes) (seed : Arr 32) : soloNonce stubHash sk msg seed = scalarOne := by
  apply Subtype.ext
  apply ZMod.val_injective
  unfold soloNonce
  rw [SecNonceBuilder.reduceOrOne_val, ← reduceFrom_val, stubHash_tagHash _ (by decide)]
  rw [show (scalarOne : Scalar).1 = 1 from rfl, ZMod.val_one'' (by have := one_lt_orderN; omega)]
  rfl

theorem last_challenge (A : MaybePoint) (P : Point) (x : UInt8) :
    Spec.challenge lastByteHash A P.1 [x] = (x.toNat : MaybeScalar) := by
  rw [spec_challenge lastByteHash_tagsAgree]
  exact lastByteHash_append _ (by decide) _ _

end Verif
