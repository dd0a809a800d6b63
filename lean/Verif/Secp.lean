import Mathlib.Algebra.Module.Defs
import Mathlib.Algebra.Module.Torsion.Free
import Mathlib.Algebra.Order.Field.Basic
import Verif.Curve.Order
import Verif.Bytes

/-!
# The `secp` crate

The external types used by the code: `Scalar`, `MaybeScalar`, `Point`, `MaybePoint`, with their parsing and
serialization. The source of the crate is not in the repository; this file states what the model takes
its behaviour to be (see `DESIGN.md`, trusted base).
-/

namespace Verif

open WeierstrassCurve.Affine

/-! ## Scalars -/

/-- `secp::MaybeScalar`: an integer modulo the group order (`Zero` or `Valid`). -/
abbrev MaybeScalar := ZMod orderN

/-- `secp::Scalar`: a nonzero integer modulo the group order. -/
abbrev Scalar := {s : MaybeScalar // s ≠ 0}

instance : NeZero orderN := ⟨orderN_prime.ne_zero⟩

theorem orderN_lt : orderN < 256 ^ 32 := by decide +kernel
theorem fieldP_lt : fieldP < 256 ^ 32 := by decide +kernel
theorem orderN_odd : orderN % 2 = 1 := by decide +kernel
theorem fieldP_odd : fieldP % 2 = 1 := by decide +kernel
theorem orderN_lt_fieldP : orderN < fieldP := by decide +kernel
theorem fieldP_lt_two_orderN : fieldP < 2 * orderN := by decide +kernel
theorem two_pow_256_lt_two_orderN : 256 ^ 32 < 2 * orderN := by decide +kernel
theorem one_lt_orderN : 1 < orderN := by decide +kernel

theorem fieldP_mod_four : fieldP % 4 = 3 := by decide +kernel

/-- `MaybeScalar::serialize` / `Scalar::serialize`. -/
def serScalar (s : MaybeScalar) : Arr 32 := beArr 32 s.val

/-- `MaybeScalar::reduce_from`: the big-endian integer modulo `n`. -/
def reduceFrom (b : Arr 32) : MaybeScalar := (beNat b.1 : ℕ)

/-- `MaybeScalar::from_slice`: 32 bytes, below `n`. -/
def parseMaybeScalar (b : Bytes) : Option MaybeScalar :=
  if b.length = 32 ∧ beNat b < orderN then some ((beNat b : ℕ) : MaybeScalar) else none

/-- `MaybeScalar::not_zero` / `into_option`. -/
def notZero (s : MaybeScalar) : Option Scalar :=
  if h : s ≠ 0 then some ⟨s, h⟩ else none

/-- `Scalar::from_slice`: 32 bytes, nonzero and below `n`. -/
def parseScalar (b : Bytes) : Option Scalar := (parseMaybeScalar b).bind notZero

instance : Nontrivial MaybeScalar := inferInstance

/-- `Scalar::one`. -/
def scalarOne : Scalar := ⟨1, one_ne_zero⟩

/-- `negate_if` on scalars. -/
def negIf {α : Type} [Neg α] (b : Bool) (x : α) : α := if b then -x else x

/-- `Scalar::negate_if`. -/
def Scalar.negIf (b : Bool) (s : Scalar) : Scalar :=
  ⟨Verif.negIf b s.1, by
    unfold Verif.negIf
    split
    · exact neg_ne_zero.2 s.2
    · exact s.2⟩

/-! ## Points -/

/-- `secp::MaybePoint`: a point of the curve, `0` being `Infinity`. -/
def MaybePoint : Type := CurvePoint

instance : AddCommGroup MaybePoint := inferInstanceAs (AddCommGroup CurvePoint)
instance : DecidableEq MaybePoint := inferInstanceAs (DecidableEq CurvePoint)
instance : Finite MaybePoint := inferInstanceAs (Finite CurvePoint)
instance : Inhabited MaybePoint := ⟨0⟩

/-- The point with the given coordinates. -/
def mkPoint (x y : Fp) (h : y ^ 2 = x ^ 3 + 7) : MaybePoint :=
  WeierstrassCurve.Affine.Point.some x y ((curve_nonsingular_iff _ _).2 h)

theorem mkPoint_ne_zero (x y : Fp) (h : y ^ 2 = x ^ 3 + 7) : mkPoint x y h ≠ 0 :=
  WeierstrassCurve.Affine.Point.some_ne_zero _

theorem MaybePoint.eq_zero_or_mk (P : MaybePoint) : P = 0 ∨ ∃ x y h, P = mkPoint x y h := by
  change CurvePoint at P
  cases P with
  | zero => exact Or.inl rfl
  | some x y h => exact Or.inr ⟨x, y, (curve_nonsingular_iff _ _).1 h, rfl⟩

theorem mkPoint_inj {x y x' y' : Fp} {h : y ^ 2 = x ^ 3 + 7} {h' : y' ^ 2 = x' ^ 3 + 7} :
    mkPoint x y h = mkPoint x' y' h' ↔ x = x' ∧ y = y' := by
  constructor
  · intro e
    exact (WeierstrassCurve.Affine.Point.some.injEq ..).mp e
  · rintro ⟨rfl, rfl⟩; rfl

theorem neg_mkPoint (x y : Fp) (h : y ^ 2 = x ^ 3 + 7) :
    -mkPoint x y h = mkPoint x (-y) (by rw [neg_sq]; exact h) := by
  have := WeierstrassCurve.Affine.Point.neg_some ((curve_nonsingular_iff _ _).2 h)
  simp only [curve_negY] at this
  exact this

/-- `secp::Point`: a point other than infinity. -/
abbrev Point := {P : MaybePoint // P ≠ 0}

/-- The generator. -/
def G : MaybePoint := baseG

theorem orderN_nsmul' (P : MaybePoint) : orderN • P = 0 := orderN_nsmul P

theorem mod_orderN_nsmul (k : ℕ) (P : MaybePoint) : (k % orderN) • P = k • P := by
  conv_rhs => rw [← Nat.mod_add_div k orderN, add_nsmul, mul_comm, mul_nsmul, orderN_nsmul',
    add_zero]

/-- Scalar multiplication: add the point to itself. -/
instance : Module MaybeScalar MaybePoint where
  smul s P := s.val • P
  one_smul P := by
    change (1 : MaybeScalar).val • P = P
    rw [ZMod.val_one'' (by have := one_lt_orderN; omega), one_nsmul]
  mul_smul a b P := by
    change (a * b).val • P = a.val • (b.val • P)
    rw [ZMod.val_mul, mod_orderN_nsmul, mul_comm, mul_nsmul]
  smul_zero a := nsmul_zero _
  smul_add a P Q := nsmul_add _ _ _
  add_smul a b P := by
    change (a + b).val • P = a.val • P + b.val • P
    rw [ZMod.val_add, mod_orderN_nsmul, add_nsmul]
  zero_smul P := by
    change (0 : MaybeScalar).val • P = 0
    rw [ZMod.val_zero, zero_nsmul]

theorem smul_def (s : MaybeScalar) (P : MaybePoint) : s • P = s.val • P := rfl

theorem natCast_smul_eq (k : ℕ) (P : MaybePoint) : (k : MaybeScalar) • P = k • P := by
  rw [smul_def, ZMod.val_natCast, mod_orderN_nsmul]

theorem G_ne_zero : G ≠ 0 := baseG_ne_zero

/-- The generator as a `Point`. -/
def Gpt : Point := ⟨G, G_ne_zero⟩

/-- Every point has a discrete logarithm. -/
theorem exists_dlog (P : MaybePoint) : ∃ a : MaybeScalar, a • G = P := by
  obtain ⟨k, -, hk⟩ := exists_nsmul_baseG P
  exact ⟨(k : MaybeScalar), by rw [natCast_smul_eq]; exact hk⟩

theorem smul_eq_zero_iff {s : MaybeScalar} {P : MaybePoint} : s • P = 0 ↔ s = 0 ∨ P = 0 := by
  refine ⟨fun h => ?_, fun h => ?_⟩
  · by_cases hs : s = 0
    · exact Or.inl hs
    · right
      have : s⁻¹ • (s • P) = P := by rw [smul_smul, inv_mul_cancel₀ hs, one_smul]
      rw [← this, h, smul_zero]
  · rcases h with rfl | rfl
    · exact zero_smul _ _
    · exact smul_zero _

theorem smul_G_inj {a b : MaybeScalar} : a • G = b • G ↔ a = b := by
  refine ⟨fun h => ?_, fun h => by rw [h]⟩
  have : (a - b) • G = 0 := by rw [sub_smul, h, sub_self]
  rcases smul_eq_zero_iff.1 this with h | h
  · exact sub_eq_zero.1 h
  · exact absurd h G_ne_zero

theorem smul_G_eq_zero {a : MaybeScalar} : a • G = 0 ↔ a = 0 := by
  rw [smul_eq_zero_iff]; simp [G_ne_zero]

/-- `scalar * G` for a nonzero scalar (`Scalar::base_point_mul`). -/
def mulG (s : Scalar) : Point := ⟨s.1 • G, fun h => s.2 (smul_G_eq_zero.1 h)⟩

/-- `MaybePoint::not_inf` / `into_option`. -/
def notInf (P : MaybePoint) : Option Point :=
  if h : P ≠ 0 then some ⟨P, h⟩ else none

/-- `parity()` / `has_odd_y()`; infinity counts as even. -/
def isOdd (P : MaybePoint) : Bool :=
  match (P : CurvePoint) with
  | .zero => false
  | .some _ y _ => decide (y.val % 2 = 1)

/-- `serialize_xonly`; infinity is 32 zero bytes. -/
def xonly (P : MaybePoint) : Arr 32 :=
  match (P : CurvePoint) with
  | .zero => beArr 32 0
  | .some x _ _ => beArr 32 x.val

/-- The x coordinate as an integer (0 for infinity). -/
def xNat (P : MaybePoint) : ℕ :=
  match (P : CurvePoint) with
  | .zero => 0
  | .some x _ _ => x.val

/-- `serialize`: 33 bytes, compressed; infinity is 33 zero bytes. -/
def serPoint (P : MaybePoint) : Arr 33 :=
  if P = 0 then ⟨List.replicate 33 0, by simp⟩
  else ⟨(if isOdd P then 3 else 2) :: (xonly P).1, by simp [(xonly P).2]⟩

/-- `-point`. -/
def Point.neg (P : Point) : Point := ⟨-P.1, neg_ne_zero.2 P.2⟩

/-- A square root modulo `p` (`p ≡ 3 mod 4`), if there is one. -/
def sqrtFp (c : Fp) : Fp := ((powMod c.val ((fieldP + 1) / 4) fieldP : ℕ) : Fp)

/-- The point with the given x coordinate and parity of y. -/
def decompress (x : ℕ) (odd : Bool) : Option Point :=
  if x < fieldP then
    let y := sqrtFp ((x : Fp) ^ 3 + 7)
    if h : y ^ 2 = (x : Fp) ^ 3 + 7 then
      let P : Point := ⟨mkPoint (x : Fp) y h, mkPoint_ne_zero _ _ h⟩
      if isOdd P.1 = odd then some P else some P.neg
    else none
  else none

/-- `Point::lift_x` (`reference.py` lines 97-105). -/
def liftX (b : Arr 32) : Option Point := decompress (beNat b.1) false

/-- `Point::from_slice`, on 33-byte slices (the only length the code passes). -/
def parsePoint (b : Bytes) : Option Point :=
  if b.length = 33 then
    match b with
    | [] => none
    | t :: xs =>
      if t = 2 then decompress (beNat xs) false
      else if t = 3 then decompress (beNat xs) true
      else none
  else none

/-- `MaybePoint::from_slice`, on 33-byte slices: also 33 zero bytes for infinity. -/
def parseMaybePoint (b : Bytes) : Option MaybePoint :=
  if b = List.replicate 33 0 then some 0
  else (parsePoint b).map (·.1)

/-- `to_even_y`. -/
def toEvenY (P : Point) : Point := if isOdd P.1 then Point.neg P else P

end Verif
