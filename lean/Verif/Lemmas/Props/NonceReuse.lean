import Verif.Spec.Claims
import Verif.Lemmas.Sgn
import Verif.Lemmas.Props.Sessions

/-!
# Lemmas and example data for `Props/NonceReuse`
-/

namespace Verif

theorem observed_signature {H : Hash} (hH : TagsAgree H) {ctx : KeyAggContext} (hc : Reachable H ctx) {sk : Scalar}
    {sn : SecNonce} {an : AggNonce} {T : MaybePoint} {msg : Bytes} {s a : MaybeScalar}
    (hs : signPartialAdaptor H ctx sk sn an T msg = .ok s)
    (ha : (ctx.keyCoefficient (mulG sk) : Res Unit _) = .ok (some a)) :
    let o := Spec.observe H ctx.aggregatedPubkey an T msg
    o.sign * s = sn.k1.1 + o.b * sn.k2.1 + o.e * a * (Spec.keySign ctx * sk.1) := by
  intro o
  rw [signPartialAdaptor_eq hc.inv] at hs
  have hm : mulG sk ∈ ctx.orderedPubkeys := by
    by_contra hn
    rw [if_neg hn] at hs
    cases hs
  rw [if_pos hm] at hs
  rw [hc.inv.keyCoefficient_eq, if_pos hm] at ha
  cases hs
  cases ha
  change Spec.sgn (sessionRT H ctx an T msg) * _ = sn.k1.1 + an.nonceCoefficient H ctx.pubkey msg * sn.k2.1
    + Spec.sgn (sessionRT H ctx an T msg) * Spec.challenge H (sessionRT H ctx an T msg) ctx.pubkey.1 msg
      * coeffOf H ctx.orderedPubkeys (mulG sk) * (Spec.keySign ctx * sk.1)
  rw [keySign_mul, spec_challenge hH, sgn_mul, sgn_mul]
  change negIf (isOdd (sessionRT H ctx an T msg)) _ = _
    + negIf (isOdd (sessionRT H ctx an T msg)) (sessionE H ctx an T msg) * coeffOf H ctx.orderedPubkeys (mulG sk) *
      negIf (isOdd ctx.pubkey.1 ^^ ctx.parityAcc) sk.1
  unfold partialSigValue
  cases isOdd (sessionRT H ctx an T msg)
  · rfl
  · change -(-_ + _) = _ + -_ * _ * _
    ring

/-- A hash for the examples: SHA-256 on short inputs, and the last byte of all others. -/
def lastByteHash : Hash := fun m =>
  if m.length < 32 then sha256 m else ⟨beBytes 32 (m.getLastD 0).toNat, beBytes_length 32 _⟩

theorem lastByteHash_tagsAgree : TagsAgree lastByteHash where
  keyAggList := by decide +kernel
  keyAggCoeff := by decide +kernel
  musigAux := by decide +kernel
  musigNonce := by decide +kernel
  musigNoncecoef := by decide +kernel
  bip340Aux := by decide +kernel
  bip340Nonce := by decide +kernel
  bip340Challenge := by decide +kernel
  bip340Batch := by decide +kernel
  tapTweak := by decide +kernel

theorem lastByteHash_tagHash (d : Bytes) (hd : d.length = 32) (m : Bytes) :
    reduceFrom (tagHash lastByteHash d m) = (((d ++ d ++ m).getLastD 0).toNat : MaybeScalar) := by
  have h : tagHash lastByteHash d m
      = ⟨beBytes 32 ((d ++ d ++ m).getLastD 0).toNat, beBytes_length 32 _⟩ := by
    unfold tagHash lastByteHash
    rw [if_neg (by simp only [List.length_append]; omega)]
  rw [h]
  unfold reduceFrom
  simp only
  rw [beNat_beBytes_of_lt]
  have := ((d ++ d ++ m).getLastD 0).toNat_lt
  calc _ < 2 ^ 8 := this
    _ ≤ 256 ^ 32 := by norm_num

theorem lastByteHash_append (d : Bytes) (hd : d.length = 32) (m : Bytes) (x : UInt8) :
    reduceFrom (tagHash lastByteHash d (m ++ [x])) = (x.toNat : MaybeScalar) := by
  rw [lastByteHash_tagHash d hd, ← List.append_assoc, List.getLastD_concat]

/-- The group with secret keys `1` and `2`. -/
def lastKeys : List Point := stubKeys.map mulG

theorem lastKeys_second : secondKey lastKeys = some (mulG ⟨2, two_ne_zero_scalar⟩) := by
  have : mulG (⟨2, two_ne_zero_scalar⟩ : Scalar) ≠ mulG scalarOne := by
    intro h
    have h' : (2 : MaybeScalar) = 1 := congrArg Subtype.val (mulG_injective h)
    exact one_ne_zero (α := MaybeScalar) (by linear_combination h')
  simp [secondKey, lastKeys, stubKeys, this]

theorem last_coeff_two : coeffOf lastByteHash lastKeys (mulG ⟨2, two_ne_zero_scalar⟩) = 1 := by
  unfold coeffOf computeKeyAggregationCoefficient
  rw [lastKeys_second, if_pos rfl]

theorem last_coeff (P : Point) : ∃ c < 256, coeffOf lastByteHash lastKeys P = ((c : ℕ) : MaybeScalar) := by
  unfold coeffOf computeKeyAggregationCoefficient
  split_ifs
  · exact ⟨1, by norm_num, by norm_num⟩
  · exact ⟨_, UInt8.toNat_lt _, lastByteHash_tagHash _ (by decide) _⟩

theorem last_keySum_ne : keySum lastByteHash lastKeys ≠ 0 := by
  unfold keySum
  obtain ⟨c, hc, h⟩ := last_coeff (mulG scalarOne)
  change (coeffOf lastByteHash lastKeys (mulG scalarOne) • (mulG scalarOne).1 +
    (coeffOf lastByteHash lastKeys (mulG ⟨2, two_ne_zero_scalar⟩) • (mulG ⟨2, two_ne_zero_scalar⟩).1 + 0)) ≠ 0
  rw [h, last_coeff_two, one_smul, add_zero, mulG_val, mulG_val, ← mul_smul, ← add_smul, Ne, smul_G_eq_zero]
  have h2 : ((c + 2 : ℕ) : MaybeScalar) ≠ 0 := by
    rw [Ne, ZMod.natCast_eq_zero_iff]
    intro hd
    have h1 := Nat.le_of_dvd (by omega) hd
    have h2 : 1000 < orderN := by decide +kernel
    omega
  intro h
  apply h2
  push_cast
  have : (scalarOne : Scalar).1 = 1 := rfl
  rw [this, mul_one] at h
  exact h

def lastCtx : KeyAggContext := baseCtx lastByteHash lastKeys ⟨_, last_keySum_ne⟩

theorem lastCtx_reachable : Reachable lastByteHash lastCtx :=
  .new (new_eq_ok.2 ⟨by simp [lastKeys, stubKeys], by simp [lastKeys, stubKeys, u32Max], ⟨_, last_keySum_ne⟩, rfl, rfl⟩)

/-- What is observed of a session whose nonce is the finite point `P` with a message that ends in the byte `x`. -/
theorem last_observe (P : Point) (msg : Bytes) (x : UInt8) :
    Spec.observe lastByteHash lastCtx.aggregatedPubkey ⟨P.1, 0⟩ 0 (msg ++ [x])
      = ⟨x.toNat, Spec.sgn P.1 * (x.toNat : MaybeScalar), Spec.sgn P.1⟩ := by
  unfold Spec.observe
  have hR : ∀ b, ((⟨P.1, 0⟩ : AggNonce).finalNonce b).1 = P.1 := by
    intro b
    rw [finalNonce_eq_of_ne] <;> simp only [smul_zero, add_zero]
    exact P.2
  simp only [hR, add_zero]
  congr 1
  · unfold AggNonce.nonceCoefficient
    rw [← List.append_assoc]
    exact lastByteHash_append _ (by decide) _ _
  · rw [spec_challenge lastByteHash_tagsAgree]
    congr 1
    unfold computeChallengeHashTweak
    rw [← List.append_assoc]
    exact lastByteHash_append _ (by decide) _ _

theorem last_signs (an : AggNonce) (T : MaybePoint) (msg : Bytes) (sn : SecNonce) :
    ∃ s, signPartialAdaptor lastByteHash lastCtx ⟨2, two_ne_zero_scalar⟩ sn an T msg = .ok s := by
  rw [signPartialAdaptor_eq lastCtx_reachable.inv, if_pos]
  · exact ⟨_, rfl⟩
  · simp [lastCtx, baseCtx, lastKeys, stubKeys]

theorem last_keyCoefficient :
    (lastCtx.keyCoefficient (mulG ⟨2, two_ne_zero_scalar⟩) : Res Unit _) = .ok (some 1) := by
  rw [lastCtx_reachable.inv.keyCoefficient_eq, if_pos (by simp [lastCtx, baseCtx, lastKeys, stubKeys])]
  exact congrArg (fun x => Res.ok (some x)) last_coeff_two

theorem sgn_Gpt : Spec.sgn Gpt.1 = 1 := by
  have := sgn_mul Gpt.1 1
  rwa [show isOdd Gpt.1 = false from isOdd_G, negIf_false, mul_one] at this

theorem isOdd_negG : isOdd negGpt.1 = true := by
  change isOdd (-G) = true
  rw [isOdd_neg G_ne_zero, isOdd_G]
  rfl

theorem sgn_negGpt : Spec.sgn negGpt.1 = -1 := by
  have := sgn_mul negGpt.1 1
  rwa [isOdd_negG, negIf_true, mul_one] at this

end Verif
