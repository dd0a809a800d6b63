import Verif.Lemmas.Spec
import Verif.Spec.Claims

/-!
# Signs and challenges of the specification
-/

namespace Verif

theorem spec_challenge {H : Hash} (hH : TagsAgree H) (A : MaybePoint) (P : Point) (msg : Bytes) :
    Spec.challenge H A P.1 msg = computeChallengeHashTweak H (xonly A) P msg := by
  unfold Spec.challenge computeChallengeHashTweak
  rw [tagged_bip340Challenge hH, spec_xbytes, spec_xbytes]
  rfl

theorem sgn_mul (P : MaybePoint) (s : MaybeScalar) : Spec.sgn P * s = negIf (isOdd P) s := by
  unfold Spec.sgn
  rw [spec_has_even_y]
  cases isOdd P <;> simp

theorem sgn_mul_sgn (P : MaybePoint) : Spec.sgn P * Spec.sgn P = 1 := by
  unfold Spec.sgn
  split <;> ring

theorem sgn_smul (P Q : MaybePoint) : Spec.sgn P • Q = negIf (isOdd P) Q := by
  unfold Spec.sgn
  rw [spec_has_even_y]
  cases isOdd P <;> simp

theorem sgn_ne_zero (P : MaybePoint) : Spec.sgn P ≠ 0 := by
  unfold Spec.sgn
  split
  · exact one_ne_zero
  · exact neg_ne_zero.2 one_ne_zero

theorem keySign_mul (ctx : KeyAggContext) (s : MaybeScalar) :
    Spec.keySign ctx * s = negIf (isOdd ctx.aggregatedPubkey.1 ^^ ctx.parityAcc) s := by
  have h : (((specCtx ctx).gacc : ℕ) : MaybeScalar) = if ctx.parityAcc then -1 else 1 := by
    unfold specCtx
    cases ctx.parityAcc
    · simp
    · change ((orderN - 1 : ℕ) : MaybeScalar) = -1
      rw [Nat.cast_sub (by decide +kernel), Nat.cast_one, ZMod.natCast_self, zero_sub]
  unfold Spec.keySign
  rw [h, mul_assoc, sgn_mul]
  cases isOdd ctx.aggregatedPubkey.1 <;> cases ctx.parityAcc <;> simp

theorem keySign_mul_self (ctx : KeyAggContext) : Spec.keySign ctx * Spec.keySign ctx = 1 := by
  rw [keySign_mul, ← mul_one (Spec.keySign ctx), keySign_mul, negIf_negIf, Bool.xor_self, negIf_false]

theorem keySign_smul (ctx : KeyAggContext) (X : MaybePoint) :
    negIf (isOdd ctx.pubkey.1 ^^ ctx.parityAcc) X = Spec.keySign ctx • X := by
  obtain ⟨x, rfl⟩ := exists_dlog X
  rw [← mul_smul, keySign_mul, negIf_smul]; rfl

end Verif
