import Verif.Props.Agreement
import Verif.Props.Uniform
import Verif.Lemmas.Props.Group
import Verif.Lemmas.Props.Forger

/-!
# Lemmas about diverging views

Three signers with the keys `1`, `2` and `3` under `stubHash`, for the example in `Props/Blame`.
-/

namespace Verif

/-- The secret keys `1`, `2` and `3`. -/
def blameKeys : List Scalar :=
  [scalarOne, ⟨2, two_ne_zero_scalar⟩, ⟨3, by exact_mod_cast natCast_scalar_ne_zero (k := 3) (by norm_num) (by norm_num)⟩]

theorem blame_keySum_ne : keySum stubHash (blameKeys.map mulG) ≠ 0 := by
  have h : keySum stubHash (blameKeys.map mulG) = (6 : MaybeScalar) • G := by
    unfold keySum
    simp only [stub_coeff, one_smul]
    simp only [blameKeys, List.map_cons, List.map_nil, List.sum_cons, List.sum_nil, add_zero, mulG_val]
    rw [← add_smul, ← add_smul]
    congr 1
    change (1 : MaybeScalar) + (2 + 3) = 6
    norm_num
  rw [h, Ne, smul_G_eq_zero]
  exact_mod_cast natCast_scalar_ne_zero (k := 6) (by norm_num) (by norm_num)

def blameCtx : KeyAggContext := baseCtx stubHash (blameKeys.map mulG) ⟨_, blame_keySum_ne⟩

theorem blameCtx_new : KeyAggContext.new stubHash (blameKeys.map mulG) = .ok blameCtx :=
  new_eq_ok.2 ⟨by simp [blameKeys], by simp [blameKeys, u32Max], ⟨_, blame_keySum_ne⟩, rfl, rfl⟩

theorem blameCtx_pubkeys : blameCtx.pubkeys = blameKeys.map mulG := rfl

/-- Every first round under `stubHash` has the secret nonce `(1, 1)`. -/
theorem stub_secnonce {ctx : KeyAggContext} {seed : Arr 32} {sp : SecNonceSpices} {i : ℕ} {r : FirstRound}
    (h : FirstRound.new stubHash ctx seed i sp = .ok r) : r.secnonce = ⟨scalarOne, scalarOne⟩ := by
  obtain ⟨P, b, -, -, rfl⟩ := FirstRound.new_eq_ok.1 h
  have hone : ∀ m, SecNonceBuilder.reduceOrOne (tagHash stubHash MUSIG_NONCE_TAG_DIGEST m) = scalarOne := by
    intro m
    unfold SecNonceBuilder.reduceOrOne
    have h1 : notZero (reduceFrom (tagHash stubHash MUSIG_NONCE_TAG_DIGEST m)) = some scalarOne :=
      notZero_eq_some.2 (stubHash_tagHash MUSIG_NONCE_TAG_DIGEST (by decide) m)
    rw [h1]
  unfold SecNonceBuilder.build
  simp only [hone]

/-- A multiple of the generator, as a point. -/
def blamePoint (k : ℕ) (h0 : 0 < k) (h : k < 100) : Point :=
  mulG ⟨-(k : ℕ), neg_ne_zero.2 (natCast_scalar_ne_zero h0 h)⟩

/-- What the third signer tells the first, `(G, -4·G)`. -/
def blameNonce0 : PubNonce := ⟨Gpt, blamePoint 4 (by norm_num) (by norm_num)⟩

/-- What the third signer tells the second, `(G, -6·G)`. -/
def blameNonce1 : PubNonce := ⟨Gpt, blamePoint 6 (by norm_num) (by norm_num)⟩

/-- Signer `i` after the nonces of the two others. -/
theorem blame_round {i j : ℕ} (hi : i < 3) (hj : j < 3) (hij : i ≠ j) (hi2 : i ≠ 2) (hj2 : j ≠ 2) (n : PubNonce)
    {r : FirstRound} (h : FirstRound.new stubHash blameCtx zeroSeed i SecNonceSpices.new = .ok r) (msg : Bytes) :
    let r' := (r.run [(j, ⟨Gpt, Gpt⟩), (2, n)]).1
    r'.keyAggCtx = blameCtx ∧ r'.signerIndex = i ∧ r'.secnonce = ⟨scalarOne, scalarOne⟩ ∧
      ∃ r2, r'.finalize stubHash (blameKeys[i]'(by simpa [blameKeys] using hi)) msg = .ok r2 ∧
        r2.pubnonces = [⟨Gpt, Gpt⟩, ⟨Gpt, Gpt⟩, n] ∧
        r2.aggregatedNonce = AggNonce.sum [⟨Gpt, Gpt⟩, ⟨Gpt, Gpt⟩, n] := by
  intro r'
  have hk : blameCtx.pubkeys.length = 3 := rfl
  have hst := FirstRound.Reachable.new (.new blameCtx_new) h
  have hst' : FirstRound.Reachable stubHash r' := hst.run _
  obtain ⟨c0, i0, -⟩ := new_fields h
  have k0 := run_ctx r [(j, ⟨Gpt, Gpt⟩), (2, n)]
  have hsn := stub_secnonce h
  have hone : mulG scalarOne = Gpt := Subtype.ext (one_smul _ _)
  have hpub : r.ourPublicNonce = ⟨Gpt, Gpt⟩ := by
    unfold FirstRound.ourPublicNonce SecNonce.publicNonce
    rw [hsn, hone]
  have hctx : r'.keyAggCtx = blameCtx := k0.1.trans c0
  have hfin : r'.pubnonceSlots.finalize = .ok [⟨Gpt, Gpt⟩, ⟨Gpt, Gpt⟩, n] := by
    refine (hst'.inv.slots_finalize _).2 ⟨by rw [hctx]; rfl, fun m hm => ?_⟩
    rw [hctx, hk] at hm
    rw [hst.inv.stored_run _ (by rw [c0]; exact hm), FirstRound.stored_new h (by rw [hk]; exact hm), hpub]
    have hjm : j = 0 ∧ i = 1 ∨ j = 1 ∧ i = 0 := by omega
    rcases hjm with ⟨rfl, rfl⟩ | ⟨rfl, rfl⟩ <;> interval_cases m <;> rfl
  have hfe := hst'.inv.finalizeAdaptor_eq (blameKeys[i]'(by simpa [blameKeys] using hi)) 0 msg hfin
  rw [if_pos (by rw [hctx]; exact List.mem_map_of_mem (f := mulG) (List.getElem_mem _))] at hfe
  exact ⟨hctx, k0.2.1.trans i0, k0.2.2.trans hsn, _, hfe, rfl, rfl⟩

theorem blame_sum0 : (AggNonce.sum [⟨Gpt, Gpt⟩, ⟨Gpt, Gpt⟩, blameNonce0]).R1
    + (AggNonce.sum [⟨Gpt, Gpt⟩, ⟨Gpt, Gpt⟩, blameNonce0]).R2 = G := by
  rw [AggNonce.sum_eq]
  simp only [List.map_cons, List.map_nil, List.sum_cons, List.sum_nil, add_zero, blameNonce0, blamePoint, mulG_val]
  have hG : Gpt.1 = (1 : MaybeScalar) • G := (one_smul _ _).symm
  rw [hG]
  simp only [← add_smul]
  rw [show ((1 : MaybeScalar) + (1 + 1) + (1 + (1 + -((4 : ℕ) : MaybeScalar)))) = 1 by push_cast; ring, one_smul]

theorem blame_sum1 : (AggNonce.sum [⟨Gpt, Gpt⟩, ⟨Gpt, Gpt⟩, blameNonce1]).R1
    + (AggNonce.sum [⟨Gpt, Gpt⟩, ⟨Gpt, Gpt⟩, blameNonce1]).R2 = -G := by
  rw [AggNonce.sum_eq]
  simp only [List.map_cons, List.map_nil, List.sum_cons, List.sum_nil, add_zero, blameNonce1, blamePoint, mulG_val]
  have hG : Gpt.1 = (1 : MaybeScalar) • G := (one_smul _ _).symm
  rw [hG]
  simp only [← add_smul]
  rw [show ((1 : MaybeScalar) + (1 + 1) + (1 + (1 + -((6 : ℕ) : MaybeScalar)))) = -1 by push_cast; ring, neg_smul, one_smul]

/-- The signature of the first signer in a view in which the final nonce is `R`. -/
theorem blame_value {an : AggNonce} {R : MaybePoint} (hR : an.R1 + an.R2 = R) (h0 : R ≠ 0) (sk : Scalar) (msg : Bytes) :
    partialSigValue stubHash blameCtx sk ⟨scalarOne, scalarOne⟩ an 0 msg =
      negIf (isOdd R) 2 + negIf (isOdd blameCtx.pubkey.1 ^^ blameCtx.parityAcc) sk.1 := by
  have hb : an.nonceCoefficient stubHash blameCtx.pubkey msg = 1 := stubHash_tagHash _ (by decide) _
  have hRT : sessionRT stubHash blameCtx an 0 msg = R := by
    unfold sessionRT sessionR
    rw [hb, finalNonce_eq_of_ne (by rw [one_smul, hR]; exact h0), one_smul, hR, add_zero]
  have he : sessionE stubHash blameCtx an 0 msg = 1 := stubHash_tagHash _ (by decide) _
  unfold partialSigValue
  rw [hb, hRT, he, stub_coeff, one_mul, one_mul, one_mul]
  congr 2
  change (1 : MaybeScalar) + 1 = 2
  norm_num

theorem blame_values_ne (sk : Scalar) (msg : Bytes) :
    partialSigValue stubHash blameCtx sk ⟨scalarOne, scalarOne⟩
        (AggNonce.sum [⟨Gpt, Gpt⟩, ⟨Gpt, Gpt⟩, blameNonce1]) 0 msg
      ≠ partialSigValue stubHash blameCtx sk ⟨scalarOne, scalarOne⟩
        (AggNonce.sum [⟨Gpt, Gpt⟩, ⟨Gpt, Gpt⟩, blameNonce0]) 0 msg := by
  have hG : G ≠ 0 := Gpt.2
  rw [blame_value blame_sum0 hG, blame_value blame_sum1 (neg_ne_zero.2 hG), isOdd_neg hG]
  intro h
  have h := add_right_cancel h
  have h4 : (4 : MaybeScalar) ≠ 0 := by
    exact_mod_cast natCast_scalar_ne_zero (k := 4) (by norm_num) (by norm_num)
  apply h4
  cases hodd : isOdd G <;> rw [hodd] at h <;> simp only [negIf, Bool.not_true, Bool.not_false] at h
  · have : (2 : MaybeScalar) - -2 = 0 := by rw [sub_eq_zero]; simpa using h.symm
    linear_combination this
  · have : (2 : MaybeScalar) - -2 = 0 := by rw [sub_eq_zero]; simpa using h
    linear_combination this

/-- Another challenge with the same key and message does not matter to a signer. -/
theorem signPartialAdaptor_answering_other (H : Hash) (ctx : KeyAggContext) (sk : Scalar) (sn : SecNonce) (an : AggNonce)
    (T X : MaybePoint) (msg : Bytes)
    (hx : Spec.xbytes ((an.finalNonce (an.nonceCoefficient H ctx.aggregatedPubkey msg)).1 + T) ≠ Spec.xbytes X) (h : Arr 32) :
    signPartialAdaptor (H.answering (Spec.challengeQuery (Spec.xbytes X) ctx.aggregatedPubkey msg) h) ctx sk sn an T msg
      = signPartialAdaptor H ctx sk sn an T msg := by
  have hb := nonceCoefficient_answering_challenge H an ctx.aggregatedPubkey msg (Spec.xbytes X) ctx.aggregatedPubkey h
  have he : computeChallengeHashTweak (H.answering (Spec.challengeQuery (Spec.xbytes X) ctx.aggregatedPubkey msg) h)
      (xonly ((an.finalNonce (an.nonceCoefficient H ctx.aggregatedPubkey msg)).1 + T)) ctx.aggregatedPubkey msg
      = computeChallengeHashTweak H (xonly ((an.finalNonce (an.nonceCoefficient H ctx.aggregatedPubkey msg)).1 + T))
        ctx.aggregatedPubkey msg := by
    rw [(C66_what_is_hashed _).2.2.2.1, (C66_what_is_hashed _).2.2.2.1]
    congr 1
    refine Hash.answering_of_ne _ _ ?_
    intro heq
    apply hx
    have heq' : Spec.challengeQuery (xonly ((an.finalNonce (an.nonceCoefficient H ctx.aggregatedPubkey msg)).1 + T)).1
        ctx.aggregatedPubkey msg = Spec.challengeQuery (xonly X).1 ctx.aggregatedPubkey msg := by
      rw [← spec_xbytes X, ← heq]
      unfold Spec.challengeQuery
      rw [spec_xbytes]
    rw [spec_xbytes, spec_xbytes]
    exact congrArg Subtype.val (Forger.challengeQuery_inj heq').1
  change AggNonce.nonceCoefficient _ _ ctx.pubkey _ = an.nonceCoefficient H ctx.pubkey msg at hb
  change computeChallengeHashTweak _ (xonly ((an.finalNonce (an.nonceCoefficient H ctx.pubkey msg)).1 + T)) ctx.pubkey msg
    = computeChallengeHashTweak H (xonly ((an.finalNonce (an.nonceCoefficient H ctx.pubkey msg)).1 + T)) ctx.pubkey msg at he
  unfold signPartialAdaptor verifyPartialAdaptor
  simp only [hb, he]

end Verif
