import Verif.Model.SigAgg
import Verif.Model.Bip340
import Verif.Lemmas.Nonces
import Verif.Lemmas.Reachable

/-!
# Lemmas about partial signing, verification and aggregation
-/

namespace Verif

/-! ## Session values -/

/-- The final nonce of a session. -/
def sessionR (H : Hash) (ctx : KeyAggContext) (an : AggNonce) (msg : Bytes) : Point :=
  an.finalNonce (an.nonceCoefficient H ctx.pubkey msg)

/-- The final nonce plus the adaptor point. -/
def sessionRT (H : Hash) (ctx : KeyAggContext) (an : AggNonce) (T : MaybePoint) (msg : Bytes) : MaybePoint :=
  (sessionR H ctx an msg).1 + T

/-- The challenge of a session. -/
def sessionE (H : Hash) (ctx : KeyAggContext) (an : AggNonce) (T : MaybePoint) (msg : Bytes) : MaybeScalar :=
  computeChallengeHashTweak H (xonly (sessionRT H ctx an T msg)) ctx.pubkey msg

/-- The right-hand side of the partial verification equation. -/
def partialRhs (H : Hash) (ctx : KeyAggContext) (an : AggNonce) (T : MaybePoint) (P : Point) (pn : PubNonce)
    (msg : Bytes) : MaybePoint :=
  negIf (isOdd (sessionRT H ctx an T msg)) (pn.R1.1 + an.nonceCoefficient H ctx.pubkey msg • pn.R2.1)
    + negIf (isOdd ctx.pubkey.1 ^^ ctx.parityAcc)
        (sessionE H ctx an T msg • (coeffOf H ctx.orderedPubkeys P • P.1))

theorem finalNonce_eq_of_ne {an : AggNonce} {b : MaybeScalar} (h : an.R1 + b • an.R2 ≠ 0) :
    (an.finalNonce b).1 = an.R1 + b • an.R2 := by
  unfold AggNonce.finalNonce
  have : notInf (an.R1 + b • an.R2) = some ⟨_, h⟩ := notInf_eq_some.2 rfl
  rw [this]

theorem finalNonce_eq_of_zero {an : AggNonce} {b : MaybeScalar} (h : an.R1 + b • an.R2 = 0) :
    an.finalNonce b = Gpt := by
  unfold AggNonce.finalNonce
  rw [h, notInf_zero]

theorem finalNonce_spec (an : AggNonce) (b : MaybeScalar) :
    (an.finalNonce b).1 = if an.R1 + b • an.R2 = 0 then G else an.R1 + b • an.R2 := by
  split
  · rename_i h; rw [finalNonce_eq_of_zero h]; rfl
  · rename_i h; exact finalNonce_eq_of_ne h

theorem verifyPartialAdaptor_eq {H : Hash} {ctx : KeyAggContext} (hi : CtxInv H ctx) (s : MaybeScalar)
    (an : AggNonce) (T : MaybePoint) (P : Point) (pn : PubNonce) (msg : Bytes) :
    verifyPartialAdaptor H ctx s an T P pn msg =
      if P ∈ ctx.orderedPubkeys then
        if s • G = partialRhs H ctx an T P pn msg then .ok () else .err .badSignature
      else .err .unknownKey := by
  unfold verifyPartialAdaptor
  rw [hi.effectivePubkey_eq]
  by_cases hP : P ∈ ctx.orderedPubkeys
  · rw [if_pos hP, if_pos hP]
    simp only [Res.bind_ok, Res.okOr_some]
    by_cases h : s • G = partialRhs H ctx an T P pn msg
    · rw [if_pos h, if_neg]
      exact not_not.2 h
    · rw [if_neg h, if_pos]
      exact h
  · rw [if_neg hP, if_neg hP]
    rfl

theorem verifyPartialAdaptor_eq_ok {H : Hash} {ctx : KeyAggContext} (hi : CtxInv H ctx) {s : MaybeScalar}
    {an : AggNonce} {T : MaybePoint} {P : Point} {pn : PubNonce} {msg : Bytes} :
    verifyPartialAdaptor H ctx s an T P pn msg = .ok () ↔
      P ∈ ctx.orderedPubkeys ∧ s • G = partialRhs H ctx an T P pn msg := by
  rw [verifyPartialAdaptor_eq hi]
  split_ifs <;> simp [*]

/-- The value computed by `sign_partial_adaptor`. -/
def partialSigValue (H : Hash) (ctx : KeyAggContext) (sk : Scalar) (sn : SecNonce) (an : AggNonce) (T : MaybePoint)
    (msg : Bytes) : MaybeScalar :=
  negIf (isOdd (sessionRT H ctx an T msg)) (sn.k1.1 + an.nonceCoefficient H ctx.pubkey msg * sn.k2.1)
    + sessionE H ctx an T msg * coeffOf H ctx.orderedPubkeys (mulG sk)
      * negIf (isOdd ctx.pubkey.1 ^^ ctx.parityAcc) sk.1

theorem partialSigValue_smul (H : Hash) (ctx : KeyAggContext) (sk : Scalar) (sn : SecNonce) (an : AggNonce)
    (T : MaybePoint) (msg : Bytes) :
    partialSigValue H ctx sk sn an T msg • G = partialRhs H ctx an T (mulG sk) sn.publicNonce msg := by
  unfold partialSigValue partialRhs SecNonce.publicNonce
  simp only [mulG_val]
  rw [add_smul]
  congr 1
  · rw [← negIf_smul, add_smul, mul_smul]
  · rw [mul_smul, mul_smul, ← negIf_smul, smul_negIf, smul_negIf]

theorem signPartialAdaptor_eq {H : Hash} {ctx : KeyAggContext} (hi : CtxInv H ctx) (sk : Scalar) (sn : SecNonce)
    (an : AggNonce) (T : MaybePoint) (msg : Bytes) :
    signPartialAdaptor H ctx sk sn an T msg =
      if mulG sk ∈ ctx.orderedPubkeys then .ok (partialSigValue H ctx sk sn an T msg) else .err .unknownKey := by
  unfold signPartialAdaptor
  simp only
  rw [hi.keyCoefficient_eq]
  by_cases hP : mulG sk ∈ ctx.orderedPubkeys
  · rw [if_pos hP, if_pos hP]
    simp only [Res.bind_ok, Res.okOr_some]
    have hv := (verifyPartialAdaptor_eq_ok hi (T := T) (msg := msg) (an := an)).2
      ⟨hP, partialSigValue_smul H ctx sk sn an T msg⟩
    unfold partialSigValue at hv ⊢
    rw [Scalar.negIf_val]
    unfold sessionE sessionRT sessionR at *
    rw [hv]
    rfl
  · rw [if_neg hP, if_neg hP]
    rfl

/-! ## Agreement with the specification -/

/-- The session of the specification. -/
def specSession (keys : List Point) (ts : List (Scalar × Bool)) (an : AggNonce) (msg : Bytes) : Spec.SessionCtx :=
  ⟨an.toBytes, keyBytes keys, tweakBytes ts, msg⟩

theorem aggnonce_take (an : AggNonce) : an.toBytes.take 33 = (serPoint an.R1).1 := by
  unfold AggNonce.toBytes
  rw [List.take_left' (serPoint an.R1).2]

theorem aggnonce_drop (an : AggNonce) : (an.toBytes.drop 33).take 33 = (serPoint an.R2).1 := by
  unfold AggNonce.toBytes
  rw [List.drop_left' (serPoint an.R1).2, List.take_of_length_le (by rw [(serPoint an.R2).2])]

theorem spec_session {H : Hash} (hH : TagsAgree H) {keys : List Point} {ts : List (Scalar × Bool)}
    {ctx0 ctx : KeyAggContext} (h0 : KeyAggContext.new H keys = .ok ctx0) (h : ctx0.withTweaks ts = .ok ctx)
    (an : AggNonce) (msg : Bytes) :
    ∃ v, Spec.get_session_values H (specSession keys ts an msg) = some v ∧
      v.Q = ctx.pubkey.1 ∧ (v.gacc : MaybeScalar) = negIf ctx.parityAcc 1 ∧ (v.tacc : MaybeScalar) = ctx.tweakAcc ∧
      v.b = (an.nonceCoefficient H ctx.pubkey msg).val ∧ v.R = (sessionR H ctx an msg).1 ∧
      v.e = (sessionE H ctx an 0 msg).val := by
  obtain ⟨c, hc, hQ, hg, ht⟩ := spec_key_agg_and_tweak hH h0 h
  have hb : Spec.int_from_bytes (Spec.tagged_hash H "MuSig/noncecoef"
      (an.toBytes ++ Spec.xbytes c.Q ++ msg)) % orderN = (an.nonceCoefficient H ctx.pubkey msg).val := by
    rw [hQ, tagged_musigNoncecoef hH, spec_xbytes]
    unfold AggNonce.nonceCoefficient
    rw [reduceFrom_val]
    rfl
  have hR : (if an.R1 + (an.nonceCoefficient H ctx.pubkey msg).val • an.R2 = 0 then Spec.G else
      an.R1 + (an.nonceCoefficient H ctx.pubkey msg).val • an.R2) = (sessionR H ctx an msg).1 := by
    rw [← smul_def, spec_G]
    exact (finalNonce_spec an _).symm
  have he : Spec.int_from_bytes (Spec.tagged_hash H "BIP0340/challenge"
      (Spec.xbytes (sessionR H ctx an msg).1 ++ Spec.xbytes c.Q ++ msg)) % orderN
      = (sessionE H ctx an 0 msg).val := by
    rw [hQ, tagged_bip340Challenge hH, spec_xbytes, spec_xbytes]
    unfold sessionE sessionRT computeChallengeHashTweak
    rw [reduceFrom_val, add_zero]
    rfl
  refine ⟨⟨c.Q, c.gacc, c.tacc, (an.nonceCoefficient H ctx.pubkey msg).val, (sessionR H ctx an msg).1,
    (sessionE H ctx an 0 msg).val⟩, ?_, hQ, hg, ht, rfl, rfl, rfl⟩
  unfold Spec.get_session_values specSession
  simp only
  rw [hc]
  simp only [Option.bind_eq_bind, Option.bind_some]
  rw [aggnonce_take, aggnonce_drop, spec_cpoint_ext, spec_cpoint_ext, parseMaybePoint_ser, parseMaybePoint_ser]
  simp only [Option.bind_some]
  rw [hb, hR, he]

end Verif
