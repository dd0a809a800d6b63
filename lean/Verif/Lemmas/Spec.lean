import Verif.Lemmas.Secp
import Verif.Spec.Tags
import Verif.Spec.Bip341

/-!
# The primitives of the specification and those of the model
-/

namespace Verif

open Spec (Pt)

theorem spec_x (P : MaybePoint) : Spec.x P = xNat P := rfl
theorem spec_G : Spec.G = G := rfl

theorem spec_has_even_y (P : MaybePoint) : Spec.has_even_y P = !isOdd P := by
  obtain rfl | ⟨x, y, hxy, rfl⟩ := P.eq_zero_or_mk
  · rfl
  · rw [isOdd_mkPoint]
    change decide (y.val % 2 = 0) = _
    by_cases h : y.val % 2 = 0
    · simp [h]
    · have : y.val % 2 = 1 := by omega
      simp [this]

theorem spec_xbytes (P : MaybePoint) : Spec.xbytes P = (xonly P).1 := by
  rw [xonly_eq]; rfl

theorem spec_cbytes {P : MaybePoint} (h : P ≠ 0) : Spec.cbytes P = (serPoint P).1 := by
  rw [serPoint_of_ne h, Spec.cbytes, spec_has_even_y, spec_xbytes]
  cases isOdd P <;> rfl

theorem spec_cbytes_point (P : Point) : Spec.cbytes P.1 = (serPoint P.1).1 := spec_cbytes P.2

theorem spec_cbytes_ext (P : MaybePoint) : Spec.cbytes_ext P = (serPoint P).1 := by
  unfold Spec.cbytes_ext
  split
  · rename_i h; subst h; exact serPoint_zero.symm
  · rename_i h; exact spec_cbytes h

/-- The even one of `y`, `-y`. -/
def evenOf (y : Fp) : Fp := if y.val % 2 = 0 then y else -y

theorem evenOf_sq (y : Fp) : evenOf y ^ 2 = y ^ 2 := by
  unfold evenOf; split
  · rfl
  · rw [neg_sq]

theorem evenOf_even (y : Fp) : ¬ (evenOf y).val % 2 = 1 := by
  unfold evenOf; split
  · omega
  · rename_i h
    rw [neg_val_parity]
    · omega
    · rintro rfl
      simp at h

/-- `lift_x` of the specification gives the even point with that x coordinate. -/
theorem spec_lift_x_eq_some {b : Bytes} {P : MaybePoint} :
    Spec.lift_x b = some P ↔ P ≠ 0 ∧ xNat P = beNat b ∧ isOdd P = false := by
  have hdef : Spec.lift_x b = if beNat b ≥ fieldP then none
    else if (((beNat b : Fp) ^ 3 + 7) ^ ((fieldP + 1) / 4)) ^ 2 ≠ (beNat b : Fp) ^ 3 + 7 then none
    else Spec.point? (beNat b : Fp) (evenOf (((beNat b : Fp) ^ 3 + 7) ^ ((fieldP + 1) / 4))) := rfl
  rw [hdef]
  constructor
  · intro h
    split at h
    · cases h
    rename_i hx
    split at h
    · cases h
    rename_i hy
    rw [not_not] at hy
    unfold Spec.point? at h
    rw [dif_pos ((evenOf_sq _).trans hy), Option.some.injEq] at h
    subst h
    refine ⟨mkPoint_ne_zero _ _ _, ?_, ?_⟩
    · rw [xNat_mkPoint, ZMod.val_natCast, Nat.mod_eq_of_lt (by omega)]
    · rw [isOdd_mkPoint, decide_eq_false_iff_not]
      exact evenOf_even _
  · rintro ⟨h0, hx, ho⟩
    obtain rfl | ⟨x, y, hxy, rfl⟩ := P.eq_zero_or_mk
    · exact absurd rfl h0
    rw [xNat_mkPoint] at hx
    rw [← hx, if_neg (by have := ZMod.val_lt x; omega), ZMod.natCast_zmod_val]
    have hsq : ((x ^ 3 + 7) ^ ((fieldP + 1) / 4)) ^ 2 = x ^ 3 + 7 := by
      rw [← hxy]; exact pow_div_four y
    rw [if_neg (by rw [not_not]; exact hsq)]
    unfold Spec.point?
    rw [dif_pos ((evenOf_sq _).trans hsq), Option.some.injEq]
    apply eq_of_xNat_isOdd
    · rw [xNat_mkPoint, xNat_mkPoint]
    · rw [ho, isOdd_mkPoint, decide_eq_false_iff_not]
      exact evenOf_even _

theorem spec_lift_x (b : Arr 32) : Spec.lift_x b.1 = (liftX b).map (·.1) := by
  apply Option.ext
  intro P
  rw [spec_lift_x_eq_some, Option.map_eq_some_iff]
  constructor
  · rintro ⟨h0, hx, ho⟩
    refine ⟨⟨P, h0⟩, liftX_eq_some.2 ⟨?_, ho⟩, rfl⟩
    apply Subtype.ext
    change (xonly P).1 = b.1
    rw [xonly_eq, hx]
    exact beBytes_beNat' b.2
  · rintro ⟨Q, hQ, rfl⟩
    rw [liftX_eq_some] at hQ
    exact ⟨Q.2, by rw [← hQ.1, beNat_xonly], hQ.2⟩

theorem spec_lift_x_xonly (P : Point) : Spec.lift_x (xonly P.1).1 = some (toEvenY P).1 := by
  rw [spec_lift_x_eq_some]
  exact ⟨(toEvenY P).2, by rw [beNat_xonly, toEvenY_val]; cases isOdd P.1 <;> simp, isOdd_toEvenY P⟩

/-- `cpoint` inverts `cbytes`. -/
theorem spec_cpoint_eq_some {b : Bytes} {P : MaybePoint} :
    Spec.cpoint b = some P ↔ P ≠ 0 ∧ b = (serPoint P).1 := by
  unfold Spec.cpoint
  constructor
  · intro h
    split at h
    · cases h
    rename_i hl
    have hl : b.length = 33 := by simpa using hl
    cases b with
    | nil => simp at hl
    | cons t xs =>
      have hl' : xs.length = 32 := by simpa using hl
      simp only [List.drop_succ_cons, List.drop_zero, List.head?_cons] at h
      rw [Option.bind_eq_bind, Option.bind_eq_some_iff] at h
      obtain ⟨Q, hQ, h⟩ := h
      rw [spec_lift_x_eq_some] at hQ
      simp only [Option.some.injEq] at h
      by_cases ht : t = 2
      · rw [if_pos ht, Option.some.injEq] at h
        subst h ht
        refine ⟨hQ.1, ?_⟩
        rw [serPoint_of_ne hQ.1, hQ.2.2, xonly_eq, hQ.2.1]
        simp [beArr, beBytes_beNat' hl']
      · rw [if_neg ht] at h
        by_cases ht : t = 3
        · rw [if_pos ht, Option.some.injEq] at h
          subst h ht
          refine ⟨neg_ne_zero.2 hQ.1, ?_⟩
          rw [serPoint_of_ne (neg_ne_zero.2 hQ.1), isOdd_neg hQ.1, hQ.2.2, xonly_neg, xonly_eq, hQ.2.1]
          simp [beArr, beBytes_beNat' hl']
        · rw [if_neg ht] at h
          cases h
  · rintro ⟨h0, rfl⟩
    rw [if_neg (by simp [(serPoint P).2]), serPoint_of_ne h0]
    simp only [List.drop_succ_cons, List.drop_zero, List.head?_cons]
    have := spec_lift_x_xonly ⟨P, h0⟩
    simp only at this
    rw [this, Option.bind_eq_bind, Option.bind_some, toEvenY_val]
    cases isOdd P <;> simp

theorem spec_cpoint_ser (P : Point) : Spec.cpoint (serPoint P.1).1 = some P.1 :=
  spec_cpoint_eq_some.2 ⟨P.2, rfl⟩

theorem spec_cpoint (b : Bytes) : Spec.cpoint b = (parsePoint b).map (·.1) := by
  apply Option.ext
  intro P
  rw [spec_cpoint_eq_some, Option.map_eq_some_iff]
  constructor
  · rintro ⟨h0, rfl⟩
    exact ⟨⟨P, h0⟩, parsePoint_ser ⟨P, h0⟩, rfl⟩
  · rintro ⟨Q, hQ, rfl⟩
    exact ⟨Q.2, parsePoint_eq_some.1 hQ⟩

theorem spec_cpoint_ext (b : Bytes) : Spec.cpoint_ext b = parseMaybePoint b := by
  unfold Spec.cpoint_ext parseMaybePoint
  rw [spec_cpoint]

/-! ## Scalars -/

theorem spec_bytes_from_int (k : ℕ) (h : k < orderN) :
    Spec.bytes_from_int k = (serScalar (k : MaybeScalar)).1 := by
  unfold Spec.bytes_from_int serScalar beArr
  rw [ZMod.val_natCast, Nat.mod_eq_of_lt h]

theorem spec_bytes_from_int_mod (k : ℕ) :
    Spec.bytes_from_int (k % orderN) = (serScalar (k : MaybeScalar)).1 := by
  unfold Spec.bytes_from_int serScalar beArr
  rw [ZMod.val_natCast]

theorem reduceFrom_val (b : Arr 32) : (reduceFrom b).val = beNat b.1 % orderN := by
  unfold reduceFrom; rw [ZMod.val_natCast]

theorem cast_mod_orderN (k : ℕ) : ((k % orderN : ℕ) : MaybeScalar) = (k : MaybeScalar) := by
  rw [ZMod.natCast_mod]

theorem cast_orderN_sub {k : ℕ} (h : k ≤ orderN) : ((orderN - k : ℕ) : MaybeScalar) = -(k : MaybeScalar) := by
  rw [Nat.cast_sub h, ZMod.natCast_self, zero_sub]

theorem nsmul_eq (k : ℕ) (P : MaybePoint) : k • P = (k : MaybeScalar) • P := (natCast_smul_eq k P).symm

theorem serScalar_val (s : MaybeScalar) : ((s.val : ℕ) : MaybeScalar) = s := ZMod.natCast_zmod_val s

/-! ## Tagged hashes -/

section
variable {H : Hash} (hH : TagsAgree H)
include hH

theorem tagged_keyAggList (m : Bytes) :
    Spec.tagged_hash H "KeyAgg list" m = (tagHash H KEYAGG_LIST_TAG_DIGEST m).1 := by
  unfold Spec.tagged_hash tagHash; rw [hH.keyAggList]
theorem tagged_keyAggCoeff (m : Bytes) :
    Spec.tagged_hash H "KeyAgg coefficient" m = (tagHash H KEYAGG_COEFF_TAG_DIGEST m).1 := by
  unfold Spec.tagged_hash tagHash; rw [hH.keyAggCoeff]
theorem tagged_musigAux (m : Bytes) :
    Spec.tagged_hash H "MuSig/aux" m = (tagHash H MUSIG_AUX_TAG_DIGEST m).1 := by
  unfold Spec.tagged_hash tagHash; rw [hH.musigAux]
theorem tagged_musigNonce (m : Bytes) :
    Spec.tagged_hash H "MuSig/nonce" m = (tagHash H MUSIG_NONCE_TAG_DIGEST m).1 := by
  unfold Spec.tagged_hash tagHash; rw [hH.musigNonce]
theorem tagged_musigNoncecoef (m : Bytes) :
    Spec.tagged_hash H "MuSig/noncecoef" m = (tagHash H MUSIG_NONCECOEF_TAG_DIGEST m).1 := by
  unfold Spec.tagged_hash tagHash; rw [hH.musigNoncecoef]
theorem tagged_bip340Aux (m : Bytes) :
    Spec.tagged_hash H "BIP0340/aux" m = (tagHash H BIP0340_AUX_TAG_DIGEST m).1 := by
  unfold Spec.tagged_hash tagHash; rw [hH.bip340Aux]
theorem tagged_bip340Nonce (m : Bytes) :
    Spec.tagged_hash H "BIP0340/nonce" m = (tagHash H BIP0340_NONCE_TAG_DIGEST m).1 := by
  unfold Spec.tagged_hash tagHash; rw [hH.bip340Nonce]
theorem tagged_bip340Challenge (m : Bytes) :
    Spec.tagged_hash H "BIP0340/challenge" m = (tagHash H BIP0340_CHALLENGE_TAG_DIGEST m).1 := by
  unfold Spec.tagged_hash tagHash; rw [hH.bip340Challenge]
theorem tagged_tapTweak (m : Bytes) :
    Spec.tagged_hash H "TapTweak" m = (tagHash H TAPROOT_TWEAK_TAG_DIGEST m).1 := by
  unfold Spec.tagged_hash tagHash; rw [hH.tapTweak]

end

end Verif
