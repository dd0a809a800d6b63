import Verif.Lemmas.Props.AdaptorBatch

/-!
# Property C137: small batches with adaptor signatures for known adaptor points are sound, large ones are not
-/

namespace Verif

open BatchForger

/-! ## C137 -/

/-- **C137**. Somebody asks for at most `q` challenges, batch seeds and outputs of the generator, and submits at most `L` signatures,
plain ones or adaptor signatures for adaptor points of a list `Ts` that was fixed before. With `N = q + L + 2`, the chance that
`verify_batch` accepts although a signature is invalid is at most `((L + 1) N (N - 1) + 2 N (2 |Ts| + 1) ^ L) / 2 ^ 256`. -/
theorem C137_known_points_sound (H : Hash) (L q : ℕ) (Ts : List MaybePoint) (A : BatchForger L (List BatchItem))
    (hA : A.AsksAtMost (fun items => Spec.KnownBatch Ts items ∧ items.length ≤ L) q) :
    (Spec.chance fun ω : Fin (q + (L + 2)) → Draw L => Fools H A ω)
      ≤ ((L + 1) * ((q + L + 2) * (q + L + 1)) + 2 * (q + L + 2) * (2 * Ts.length + 1) ^ L) / 2 ^ 256 :=
  chance_fools Ts H hA

/-- **C137**. The factor that grows with the number of signatures is necessary: whatever adaptor point is fixed, with `n + 1` signatures
three questions suffice to fool `verify_batch`, except with a chance of `2 ^ 257 / 2 ^ n`. -/
theorem C137_many_rows_fool (H : Hash) (T : Point) (n : ℕ) (hn : n ≤ 2 ^ 254) : ∃ A : BatchForger (n + 1) (List BatchItem),
    A.AsksAtMost (fun items => Spec.KnownBatch [T.1] items ∧ items.length = n + 1) 3 ∧
    1 - 2 * 2 ^ 256 / 2 ^ n ≤ Spec.chance fun ω : Fin (3 + ((n + 1) + 2)) → Draw (n + 1) => Fools H A ω := by
  obtain ⟨t, ht⟩ := exists_dlog T.1
  have h0 : t ≠ 0 := by
    rintro rfl
    exact T.2 (ht.symm.trans (zero_smul _ _))
  refine ⟨manyForger n t, ?_, chance_many H h0 hn (by omega)⟩
  rw [← ht]
  exact manyForger_asks n t

/-- With 64 signatures, one adaptor point and `2 ^ 80` questions the chance is less than `2 ^ -70`. -/
example : (((64 : ℕ) + 1) * (((2 ^ 80 : ℕ) + (64 : ℕ) + 2) * ((2 ^ 80 : ℕ) + (64 : ℕ) + 1))
    + 2 * ((2 ^ 80 : ℕ) + (64 : ℕ) + 2) * (2 * ((1 : ℕ) : ℚ) + 1) ^ 64) / 2 ^ 256 < 1 / 2 ^ 70 := by norm_num

/-- Two signatures, one of them an adaptor signature for the adaptor point `G`: they pass if the coefficient is drawn to be `-1 / 2`. -/
example (H : Hash) : ∃ A : BatchForger 2 (List BatchItem),
    A.AsksAtMost (fun items => Spec.KnownBatch [G] items ∧ items.length ≤ 2) 3 ∧ ∃ ω : Fin (3 + (2 + 2)) → Draw 2, Fools H A ω := by
  have h2 : (-(2 * 1)⁻¹ : MaybeScalar) ≠ 0 := neg_ne_zero.2 (inv_ne_zero (by rw [mul_one]; exact two_ne_zero_scalar))
  refine ⟨manyForger 1 1, ?_, fun _ => (zeroSeed, fun _ => ⟨-(2 * 1)⁻¹, h2⟩),
    manyForger_fools H one_ne_zero (by omega) _ ⟨{0}, Finset.sum_singleton _ _⟩⟩
  have h := manyForger_asks 1 1
  rw [one_smul] at h
  exact h.weaken fun items hi => ⟨hi.1, hi.2.le⟩

end Verif
