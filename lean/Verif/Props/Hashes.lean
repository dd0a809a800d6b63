import Verif.Lemmas.Props.Hashes
import Verif.Model.Bip340
import Verif.Spec.Tags
import Verif.Lemmas.Spec
import Verif.Props.KeyAgg
import Verif.Lemmas.Props.Nonces

/-!
# Properties C65, C66, C69: hash tags, domain separation, the group
-/

namespace Verif

/-! ## C65 -/

/-- **C65**. The table has exactly the ten tags, and each constant is the SHA-256 of its tag. -/
theorem C65_tag_digests : tagTable.map (·.1) = Spec.tags ∧
    ∀ e ∈ tagTable, (sha256 (Spec.utf8 e.1)).1 = e.2 := by
  decide +kernel

/-- **C65**. The ten prefixes are pairwise different. -/
theorem C65_tags_distinct : (Spec.tags.map fun t => sha256 (Spec.utf8 t)).Nodup := by
  decide +kernel

/-! ## C66 -/

theorem taggedInput_eq {tag : String} {D : Bytes} (h : (tag, D) ∈ tagTable) (x : Bytes) :
    Spec.taggedInput tag x = D ++ D ++ x := by
  have := C65_tag_digests.2 _ h
  unfold Spec.taggedInput
  rw [this]

/-- **C66**. Hashes with different tags never hash the same bytes. -/
theorem C66_domain_separation (t t' : String) (ht : t ∈ Spec.tags) (ht' : t' ∈ Spec.tags) (hne : t ≠ t') (x y : Bytes) :
    Spec.taggedInput t x ≠ Spec.taggedInput t' y := by
  intro h
  unfold Spec.taggedInput at h
  rw [List.append_assoc, List.append_assoc] at h
  obtain ⟨h1, -⟩ := append_inj_len h (by rw [(sha256 _).2, (sha256 _).2])
  have h2 : sha256 (Spec.utf8 t) = sha256 (Spec.utf8 t') := Subtype.ext h1
  exact hne (List.inj_on_of_nodup_map C65_tags_distinct ht ht' h2)

example : "MuSig/nonce" ∈ Spec.tags ∧ "BIP0340/nonce" ∈ Spec.tags ∧ "MuSig/nonce" ≠ "BIP0340/nonce" := by
  decide +kernel

theorem batchSeed_eq (H : Hash) (rows : List BatchVerificationRow) : batchSeed H rows
    = H (Spec.taggedInput "BIP0340/batch" ((rows.map fun row => Spec.bytes_from_int row.challenge.val).flatten
        ++ (rows.map fun row => Spec.bytes_from_int row.s.val).flatten)) := by
  rw [taggedInput_eq (D := BIP0340_BATCH_TAG_DIGEST) (by simp [tagTable])]
  rfl

/-- **C66**. What each function hashes, tag by tag. -/
theorem C66_what_is_hashed (H : Hash) :
    (∀ keys, hashPubkeys H keys = H (Spec.taggedInput "KeyAgg list" (keys.map fun P => Spec.cbytes P.1).flatten)) ∧
    (∀ L P pk2, pk2 ≠ some P → computeKeyAggregationCoefficient H L P pk2
      = reduceFrom (H (Spec.taggedInput "KeyAgg coefficient" (L.1 ++ Spec.cbytes P.1)))) ∧
    (∀ (an : AggNonce) Q msg, an.nonceCoefficient H Q msg = reduceFrom (H (Spec.taggedInput "MuSig/noncecoef"
      (Spec.cbytes_ext an.R1 ++ Spec.cbytes_ext an.R2 ++ Spec.xbytes Q.1 ++ msg)))) ∧
    (∀ rx P msg, computeChallengeHashTweak H rx P msg
      = reduceFrom (H (Spec.taggedInput "BIP0340/challenge" (rx.1 ++ Spec.xbytes P.1 ++ msg)))) ∧
    (∀ b : SecNonceBuilder, (b.build H).k1.1.val = nonceScalar H ((nonceInputs H b).bytes ++ [0]) ∧
      (b.build H).k2.1.val = nonceScalar H ((nonceInputs H b).bytes ++ [1])) ∧
    (∀ (rng : SeedRng) rows, verifyBatch H rng rows = verifyBatch H (fun _ => rng (H (Spec.taggedInput "BIP0340/batch"
      ((rows.map fun row => Spec.bytes_from_int row.challenge.val).flatten
        ++ (rows.map fun row => Spec.bytes_from_int row.s.val).flatten)))) rows) ∧
    (∀ (ctx t : KeyAggContext) (root : Arr 32), ctx.withTaprootTweak H root = .ok t →
      ∃ k : Scalar, k.1 = reduceFrom (H (Spec.taggedInput "TapTweak" (Spec.xbytes ctx.pubkey.1 ++ root.1))) ∧
        ctx.withTweak k true = .ok t) ∧
    (∀ sk msg seed T, (signSoloAdaptor H sk msg seed T).R
      = orOne (Spec.int_from_bytes (H (Spec.taggedInput "BIP0340/nonce"
        (Spec.bytes_xor (H (Spec.taggedInput "BIP0340/aux" seed.1)).1
            (Spec.bytes_from_int (if Spec.has_even_y (sk.1 • G) then sk.1.val else (-sk.1).val))
          ++ Spec.xbytes (sk.1 • G) ++ msg))).1 % orderN) • G) := by
  have m : ∀ e ∈ tagTable, ∀ x, Spec.taggedInput e.1 x = e.2 ++ e.2 ++ x := fun e he x => taggedInput_eq he x
  refine ⟨fun keys => ?_, fun L P pk2 h => ?_, fun an Q msg => ?_, fun rx P msg => ?_, fun b => ?_, fun rng rows => ?_,
    fun ctx t root h => ?_, fun sk msg seed T => ?_⟩
  · rw [m (_, KEYAGG_LIST_TAG_DIGEST) (by simp [tagTable])]
    simp only [spec_cbytes_point]
    rfl
  · rw [m (_, KEYAGG_COEFF_TAG_DIGEST) (by simp [tagTable]), spec_cbytes_point]
    unfold computeKeyAggregationCoefficient
    rw [if_neg h]
    rfl
  · rw [m (_, MUSIG_NONCECOEF_TAG_DIGEST) (by simp [tagTable]), spec_cbytes_ext, spec_cbytes_ext, spec_xbytes]
    rfl
  · rw [m (_, BIP0340_CHALLENGE_TAG_DIGEST) (by simp [tagTable]), spec_xbytes]
    rfl
  · exact ⟨build_k1 H b, build_k2 H b⟩
  · rw [← batchSeed_eq H rows]
    rfl
  · rw [m (_, TAPROOT_TWEAK_TAG_DIGEST) (by simp [tagTable]), spec_xbytes]
    unfold KeyAggContext.withTaprootTweak KeyAggContext.withTaprootTweakInternal at h
    simp only [Res.bind_eq_ok, Res.okOr_eq_ok, parseScalar_eq_some] at h
    obtain ⟨k, h1, h2⟩ := h
    refine ⟨k, ?_, h2⟩
    unfold tagHash at h1
    unfold reduceFrom
    simp only
    rw [h1, beNat_serScalar, ZMod.natCast_zmod_val]
  · rw [m (_, BIP0340_NONCE_TAG_DIGEST) (by simp [tagTable]), m (_, BIP0340_AUX_TAG_DIGEST) (by simp [tagTable]),
      spec_xbytes, spec_has_even_y]
    have hd : Spec.bytes_from_int (if (!isOdd (sk.1 • G)) = true then sk.1.val else (-sk.1).val)
        = (serScalar (sk.negIf (isOdd (mulG sk).1)).1).1 := by
      change _ = (serScalar (negIf (isOdd (sk.1 • G)) sk.1)).1
      cases isOdd (sk.1 • G) <;> rfl
    rw [hd]
    change (SecNonceBuilder.reduceOrOne _).1.val • G = orOne _ • G
    rw [SecNonceBuilder.reduceOrOne_val]
    rfl

/-- **C66**. Within one tag the hashed bytes determine the inputs (keys of x-only encodings up to sign). -/
theorem C66_inputs_determined :
    (∀ (rx rx' : Arr 32) (P P' : Point) (msg msg' : Bytes),
      Spec.taggedInput "BIP0340/challenge" (rx.1 ++ Spec.xbytes P.1 ++ msg)
        = Spec.taggedInput "BIP0340/challenge" (rx'.1 ++ Spec.xbytes P'.1 ++ msg') →
      rx = rx' ∧ (P.1 = P'.1 ∨ P.1 = -P'.1) ∧ msg = msg') ∧
    (∀ (an an' : AggNonce) (Q Q' : Point) (msg msg' : Bytes),
      Spec.taggedInput "MuSig/noncecoef" (Spec.cbytes_ext an.R1 ++ Spec.cbytes_ext an.R2 ++ Spec.xbytes Q.1 ++ msg)
        = Spec.taggedInput "MuSig/noncecoef"
          (Spec.cbytes_ext an'.R1 ++ Spec.cbytes_ext an'.R2 ++ Spec.xbytes Q'.1 ++ msg') →
      an = an' ∧ (Q.1 = Q'.1 ∨ Q.1 = -Q'.1) ∧ msg = msg') ∧
    (∀ (L L' : Arr 32) (P P' : Point),
      Spec.taggedInput "KeyAgg coefficient" (L.1 ++ Spec.cbytes P.1)
        = Spec.taggedInput "KeyAgg coefficient" (L'.1 ++ Spec.cbytes P'.1) → L = L' ∧ P = P') := by
  refine ⟨fun rx rx' P P' msg msg' h => ?_, fun an an' Q Q' msg msg' h => ?_, fun L L' P P' h => ?_⟩
  · have h := taggedInput_injective h
    rw [spec_xbytes, spec_xbytes, List.append_assoc, List.append_assoc] at h
    obtain ⟨h1, h2⟩ := append_inj_len h (by rw [rx.2, rx'.2])
    obtain ⟨h2, h3⟩ := append_inj_len h2 (by rw [(xonly _).2, (xonly _).2])
    exact ⟨Subtype.ext h1, xonly_eq_iff.1 (Subtype.ext h2), h3⟩
  · have h := taggedInput_injective h
    rw [spec_xbytes, spec_xbytes, spec_cbytes_ext, spec_cbytes_ext, spec_cbytes_ext, spec_cbytes_ext,
      List.append_assoc, List.append_assoc, List.append_assoc, List.append_assoc] at h
    obtain ⟨h1, h2⟩ := append_inj_len h (by rw [(serPoint _).2, (serPoint _).2])
    obtain ⟨h2, h3⟩ := append_inj_len h2 (by rw [(serPoint _).2, (serPoint _).2])
    obtain ⟨h3, h4⟩ := append_inj_len h3 (by rw [(xonly _).2, (xonly _).2])
    have e1 := serPoint_injective (Subtype.ext h1)
    have e2 := serPoint_injective (Subtype.ext h2)
    refine ⟨?_, xonly_eq_iff.1 (Subtype.ext h3), h4⟩
    cases an; cases an'
    simp only at e1 e2
    rw [e1, e2]
  · have h := taggedInput_injective h
    rw [spec_cbytes_point, spec_cbytes_point] at h
    obtain ⟨h1, h2⟩ := append_inj_len h (by rw [L.2, L'.2])
    exact ⟨Subtype.ext h1, Subtype.ext (serPoint_injective (Subtype.ext h2))⟩

/-! ## C69 -/

/-- **C69**. The parameters are those of secp256k1, and the points are infinity and the solutions of the curve
equation, added by the chord-and-tangent law of `WeierstrassCurve.Affine.Point`. -/
theorem C69_curve_parameters :
    fieldP = 2 ^ 256 - 2 ^ 32 - 977 ∧
    orderN = 0xFFFFFFFFFFFFFFFFFFFFFFFFFFFFFFFEBAAEDCE6AF48A03BBFD25E8CD0364141 ∧
    (∃ h, G = mkPoint (0x79BE667EF9DCBBAC55A06295CE870B07029BFCDB2DCE28D959F2815B16F81798 : ℕ)
      (0x483ADA7726A3C4655DA4FBFC0E1108A8FD17B448A68554199C47D08FFB10D4B8 : ℕ) h) ∧
    (∀ P : MaybePoint, P = 0 ∨ ∃ x y h, P = mkPoint x y h) ∧
    (∀ (x y : Fp) h, -mkPoint x y h = mkPoint x (-y) (by rw [neg_sq]; exact h)) := by
  refine ⟨by decide +kernel, by decide +kernel, ?_, MaybePoint.eq_zero_or_mk, neg_mkPoint⟩
  have hx : baseX = 0x79BE667EF9DCBBAC55A06295CE870B07029BFCDB2DCE28D959F2815B16F81798 := by unfold baseX; rfl
  have hy : baseY = 0x483ADA7726A3C4655DA4FBFC0E1108A8FD17B448A68554199C47D08FFB10D4B8 := by unfold baseY; rfl
  rw [← hx, ← hy]
  exact ⟨base_equation, rfl⟩

/-- **C69**. Addition of points with different x coordinates, by the chord. -/
theorem C69_chord (x₁ y₁ x₂ y₂ : Fp) (h₁ : y₁ ^ 2 = x₁ ^ 3 + 7) (h₂ : y₂ ^ 2 = x₂ ^ 3 + 7) (hx : x₁ ≠ x₂) :
    let l := (y₁ - y₂) / (x₁ - x₂)
    let x := l ^ 2 - x₁ - x₂
    ∃ h, mkPoint x₁ y₁ h₁ + mkPoint x₂ y₂ h₂ = mkPoint x (l * (x₁ - x) - y₁) h := by
  intro l x
  have hl : l * (x₁ - x₂) = y₁ - y₂ := div_mul_cancel₀ _ (sub_ne_zero.2 hx)
  have hsl := curve_slope_ne hx hl
  have hxv : x = curve.addX x₁ x₂ l := by simp [WeierstrassCurve.Affine.addX, curve, x]
  have hyv : l * (x₁ - x) - y₁ = curve.addY x₁ x₂ y₁ l := by
    rw [WeierstrassCurve.Affine.addY, curve_negY, WeierstrassCurve.Affine.negAddY, ← hxv]
    ring
  have hadd := WeierstrassCurve.Affine.Point.add_of_X_ne (h₁ := (curve_nonsingular_iff _ _).2 h₁)
    (h₂ := (curve_nonsingular_iff _ _).2 h₂) hx
  have hns := WeierstrassCurve.Affine.nonsingular_add ((curve_nonsingular_iff _ _).2 h₁)
    ((curve_nonsingular_iff _ _).2 h₂) (fun hxy => hx hxy.1)
  rw [hsl, ← hxv, ← hyv] at hns
  refine ⟨(curve_nonsingular_iff _ _).1 hns, ?_⟩
  refine hadd.trans ?_
  unfold mkPoint
  simp only [WeierstrassCurve.Affine.Point.some.injEq, hsl]
  exact ⟨hxv.symm, hyv.symm⟩

/-- Two points with different x coordinates: `G` and `2·G`. -/
example : ∃ (x₁ y₁ x₂ y₂ : Fp), y₁ ^ 2 = x₁ ^ 3 + 7 ∧ y₂ ^ 2 = x₂ ^ 3 + 7 ∧ x₁ ≠ x₂ := by
  have h2 : (2 : MaybeScalar) • G ≠ 0 := fun h => two_ne_zero_scalar (smul_G_eq_zero.1 h)
  rcases MaybePoint.eq_zero_or_mk ((2 : MaybeScalar) • G) with h | ⟨x, y, h, e⟩
  · exact absurd h h2
  · refine ⟨_, _, x, y, base_equation, h, fun hx => ?_⟩
    have hG : xNat G = xNat ((2 : MaybeScalar) • G) := by
      rw [e]
      exact congrArg ZMod.val hx
    rcases eq_or_neg_of_xNat hG with h | h
    · have : (1 : MaybeScalar) • G = (2 : MaybeScalar) • G := by rw [one_smul]; exact h
      exact one_ne_zero (α := MaybeScalar) (by linear_combination -smul_G_inj.1 this)
    · have : (1 : MaybeScalar) • G = (-2 : MaybeScalar) • G := by rw [one_smul, neg_smul]; exact h
      have h3 : ((3 : ℕ) : MaybeScalar) = 0 := by push_cast; linear_combination smul_G_inj.1 this
      rw [ZMod.natCast_eq_zero_iff] at h3
      exact absurd (Nat.le_of_dvd (by norm_num) h3) (by decide +kernel)

/-- **C69**. Doubling, by the tangent. -/
theorem C69_tangent (x₁ y₁ : Fp) (h₁ : y₁ ^ 2 = x₁ ^ 3 + 7) :
    let l := 3 * x₁ ^ 2 / (2 * y₁)
    let x := l ^ 2 - 2 * x₁
    ∃ h, mkPoint x₁ y₁ h₁ + mkPoint x₁ y₁ h₁ = mkPoint x (l * (x₁ - x) - y₁) h := by
  intro l x
  have hy : 2 * y₁ ≠ 0 := by
    intro h
    have hy0 : y₁ = 0 := (mul_eq_zero.mp h).resolve_left Fp.two_ne_zero
    subst hy0
    exact no_cube x₁ (by linear_combination -h₁)
  have hl : l * (2 * y₁) = 3 * x₁ ^ 2 := div_mul_cancel₀ _ hy
  have hsl := curve_slope_self hy hl
  have hxv : x = curve.addX x₁ x₁ l := by simp [WeierstrassCurve.Affine.addX, curve, x]; ring
  have hyv : l * (x₁ - x) - y₁ = curve.addY x₁ x₁ y₁ l := by
    rw [WeierstrassCurve.Affine.addY, curve_negY, WeierstrassCurve.Affine.negAddY, ← hxv]
    ring
  have hne : y₁ ≠ curve.negY x₁ y₁ := by
    rw [curve_negY]
    intro he; apply hy; linear_combination he
  have hadd := WeierstrassCurve.Affine.Point.add_self_of_Y_ne (h₁ := (curve_nonsingular_iff _ _).2 h₁) hne
  have hns := WeierstrassCurve.Affine.nonsingular_add ((curve_nonsingular_iff _ _).2 h₁)
    ((curve_nonsingular_iff _ _).2 h₁) (fun hxy => hne hxy.2)
  rw [hsl, ← hxv, ← hyv] at hns
  refine ⟨(curve_nonsingular_iff _ _).1 hns, ?_⟩
  refine hadd.trans ?_
  unfold mkPoint
  simp only [WeierstrassCurve.Affine.Point.some.injEq, hsl]
  exact ⟨hxv.symm, hyv.symm⟩

/-- A point to double: `G`. -/
example : ∃ x₁ y₁ : Fp, y₁ ^ 2 = x₁ ^ 3 + 7 := ⟨_, _, base_equation⟩

/-- **C69**. The group is cyclic of prime order `n`, generated by `G`. -/
theorem C69_prime_order :
    Nat.Prime orderN ∧ Nat.card MaybePoint = orderN ∧
    (∀ P : MaybePoint, orderN • P = 0) ∧
    (∀ P : MaybePoint, ∃! a : MaybeScalar, a • G = P) ∧
    (∀ (a b : MaybeScalar) (P Q : MaybePoint), (a + b) • P = a • P + b • P ∧ (a * b) • P = a • b • P ∧
      a • (P + Q) = a • P + a • Q ∧ (a • P = 0 ↔ a = 0 ∨ P = 0)) ∧
    (∀ (k : ℕ) (P : MaybePoint), (k : MaybeScalar) • P = k • P) := by
  refine ⟨orderN_prime, card_curve, orderN_nsmul', fun P => ?_, fun a b P Q => ?_, natCast_smul_eq⟩
  · obtain ⟨a, ha⟩ := exists_dlog P
    exact ⟨a, ha, fun b hb => smul_G_inj.1 (hb.trans ha.symm)⟩
  · exact ⟨add_smul a b P, mul_smul a b P, smul_add a P Q, smul_eq_zero_iff⟩

end Verif
