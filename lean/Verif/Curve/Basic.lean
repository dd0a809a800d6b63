import Mathlib.AlgebraicGeometry.EllipticCurve.Affine.Point
import Mathlib.Tactic.LinearCombination
import Verif.Curve.Primes

/-!
# The secp256k1 curve

The curve `y² = x³ + 7` over the field of `fieldP` elements, as one of Mathlib's Weierstrass curves, and
its base point `G`.
-/

namespace Verif

instance : Fact (Nat.Prime fieldP) := ⟨fieldP_prime⟩
instance : Fact (Nat.Prime orderN) := ⟨orderN_prime⟩

/-- The base field. -/
abbrev Fp := ZMod fieldP

/-- secp256k1: `y² = x³ + 7` (`reference.py` lines 20-60 use the same curve). -/
def curve : WeierstrassCurve.Affine Fp := { a₁ := 0, a₂ := 0, a₃ := 0, a₄ := 0, a₆ := 7 }

/-- Mathlib's group of points. -/
abbrev CurvePoint := curve.Point

theorem natCast_ne_zero_of_lt {m : ℕ} (h0 : 0 < m) (h : m < fieldP) : ((m : ℕ) : Fp) ≠ 0 := by
  rw [Ne, ZMod.natCast_eq_zero_iff]
  exact fun hd => absurd (Nat.le_of_dvd h0 hd) (by omega)

theorem Fp.two_ne_zero : (2 : Fp) ≠ 0 := by
  exact_mod_cast natCast_ne_zero_of_lt (m := 2) (by decide +kernel) (by decide +kernel)

theorem Fp.three_ne_zero : (3 : Fp) ≠ 0 := by
  exact_mod_cast natCast_ne_zero_of_lt (m := 3) (by decide +kernel) (by decide +kernel)

theorem Fp.seven_ne_zero : (7 : Fp) ≠ 0 := by
  exact_mod_cast natCast_ne_zero_of_lt (m := 7) (by decide +kernel) (by decide +kernel)

theorem curve_equation_iff (x y : Fp) : curve.Equation x y ↔ y ^ 2 = x ^ 3 + 7 := by
  rw [WeierstrassCurve.Affine.equation_iff]
  simp [curve]

theorem curve_negY (x y : Fp) : curve.negY x y = -y := by
  simp [WeierstrassCurve.Affine.negY, curve]

/-- Every solution of the curve equation is a nonsingular point. -/
theorem curve_nonsingular_iff (x y : Fp) : curve.Nonsingular x y ↔ y ^ 2 = x ^ 3 + 7 := by
  rw [WeierstrassCurve.Affine.nonsingular_iff, curve_equation_iff]
  refine ⟨fun h => h.1, fun h => ⟨h, ?_⟩⟩
  simp only [curve]
  by_contra hc
  push Not at hc
  obtain ⟨h1, h2⟩ := hc
  have hy : y = 0 := by
    have : 2 * y = 0 := by linear_combination h2
    rcases mul_eq_zero.mp this with h | h
    · exact absurd h Fp.two_ne_zero
    · exact h
  have hx : x = 0 := by
    have : 3 * x ^ 2 = 0 := by linear_combination -h1
    rcases mul_eq_zero.mp this with h | h
    · exact absurd h Fp.three_ne_zero
    · exact pow_eq_zero_iff (two_ne_zero) |>.mp h
  subst hx; subst hy
  apply Fp.seven_ne_zero
  linear_combination -h

/-- Coordinates of the base point (`reference.py` line 22). -/
@[irreducible] def baseX : ℕ := 0x79BE667EF9DCBBAC55A06295CE870B07029BFCDB2DCE28D959F2815B16F81798
@[irreducible] def baseY : ℕ := 0x483ADA7726A3C4655DA4FBFC0E1108A8FD17B448A68554199C47D08FFB10D4B8

theorem base_equation : ((baseY : ℕ) : Fp) ^ 2 = ((baseX : ℕ) : Fp) ^ 3 + 7 := by
  have h : ((baseY ^ 2 : ℕ) : Fp) = ((baseX ^ 3 + 7 : ℕ) : Fp) := by
    rw [ZMod.natCast_eq_natCast_iff']
    decide +kernel
  push_cast at h
  exact h

/-- The base point of secp256k1. -/
def baseG : CurvePoint := .some _ _ ((curve_nonsingular_iff _ _).2 base_equation)

end Verif
