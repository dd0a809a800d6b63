import Verif.Spec.Views
import Verif.Lemmas.Props.Cma
import Verif.Lemmas.Props.Exact
import Verif.Lemmas.Signing

/-!
# Helpers of `Props/Views`
-/

namespace Verif

theorem not_prefix_of_tag {t t' : String} (ht : t ∈ Spec.tags) (ht' : t' ∈ Spec.tags) (hne : t ≠ t') (r : Bytes) :
    ¬ Spec.taggedInput t [] <+: Spec.taggedInput t' r := by
  rintro ⟨u, hu⟩
  have : Spec.taggedInput t [] ++ u = Spec.taggedInput t u := by
    unfold Spec.taggedInput
    rw [List.append_nil]
  rw [this] at hu
  exact C66_domain_separation t t' ht ht' hne _ _ hu

theorem tag_prefix (t : String) (r : Bytes) : Spec.taggedInput t [] <+: Spec.taggedInput t r := by
  refine ⟨r, ?_⟩
  unfold Spec.taggedInput
  rw [List.append_nil]

theorem sessionHash_other (H : Hash) (hb he : Arr 32) {t : String} (ht : t ∈ Spec.tags) (h1 : t ≠ "MuSig/noncecoef")
    (h2 : t ≠ "BIP0340/challenge") (r : Bytes) :
    Spec.sessionHash H hb he (Spec.taggedInput t r) = H (Spec.taggedInput t r) := by
  unfold Spec.sessionHash
  rw [if_neg (not_prefix_of_tag (by decide +kernel) ht h1.symm r), if_neg (not_prefix_of_tag (by decide +kernel) ht h2.symm r)]

theorem coeffOf_sessionHash (H : Hash) (hb he : Arr 32) (keys : List Point) (K : Point) :
    coeffOf (Spec.sessionHash H hb he) keys K = coeffOf H keys K := by
  have hl : ∀ r, Spec.sessionHash H hb he (Spec.taggedInput "KeyAgg list" r) = H (Spec.taggedInput "KeyAgg list" r) :=
    fun r => sessionHash_other H hb he (by decide +kernel) (by decide) (by decide) r
  have hc : ∀ r, Spec.sessionHash H hb he (Spec.taggedInput "KeyAgg coefficient" r) = H (Spec.taggedInput "KeyAgg coefficient" r) :=
    fun r => sessionHash_other H hb he (by decide +kernel) (by decide) (by decide) r
  have hk := GroupForger.hashPubkeys_congr hl keys
  unfold coeffOf
  rw [hk]
  by_cases h2 : secondKey keys = some K
  · unfold computeKeyAggregationCoefficient
    rw [if_pos h2, if_pos h2]
  · rw [(C66_what_is_hashed _).2.1 _ _ _ h2, (C66_what_is_hashed _).2.1 _ _ _ h2, hc]

theorem ctxInv_sessionHash {H : Hash} {ctx : KeyAggContext} (hi : CtxInv H ctx) (hb he : Arr 32) :
    CtxInv (Spec.sessionHash H hb he) ctx := by
  have hc : coeffOf (Spec.sessionHash H hb he) ctx.orderedPubkeys = coeffOf H ctx.orderedPubkeys :=
    funext (coeffOf_sessionHash H hb he _)
  have hk : keySum (Spec.sessionHash H hb he) ctx.orderedPubkeys = keySum H ctx.orderedPubkeys := by
    unfold keySum
    rw [hc]
  exact ⟨hi.nonempty, hi.length_le, hi.indexes, by rw [hc]; exact hi.coeffs, by rw [hc]; exact hi.eff, by rw [hk]; exact hi.sum_ne,
    by rw [hk]; exact hi.pub⟩

theorem nonceCoefficient_sessionHash (H : Hash) (hb he : Arr 32) (an : AggNonce) (Q : Point) (msg : Bytes) :
    an.nonceCoefficient (Spec.sessionHash H hb he) Q msg = reduceFrom hb := by
  rw [(C66_what_is_hashed _).2.2.1]
  exact congrArg _ (if_pos (tag_prefix _ _))

theorem challenge_sessionHash (H : Hash) (hb he : Arr 32) (rx : Arr 32) (Q : Point) (msg : Bytes) :
    computeChallengeHashTweak (Spec.sessionHash H hb he) rx Q msg = reduceFrom he := by
  rw [(C66_what_is_hashed _).2.2.2.1]
  unfold Spec.sessionHash
  rw [if_neg (not_prefix_of_tag (by decide +kernel) (by decide +kernel) (by decide) _), if_pos (tag_prefix _ _)]

/-- What is added to the nonces in a partial signature. -/
def keyPart (ctx : KeyAggContext) (sk : Scalar) (a : MaybeScalar) (he : Arr 32) : MaybeScalar :=
  reduceFrom he * a * negIf (isOdd ctx.pubkey.1 ^^ ctx.parityAcc) sk.1

theorem signPartialAdaptor_sessionHash {H : Hash} {ctx : KeyAggContext} (hi : CtxInv H ctx) {sk : Scalar}
    (hP : mulG sk ∈ ctx.orderedPubkeys) (sn : SecNonce) (an : AggNonce) (T : MaybePoint) (msg : Bytes) (hb he : Arr 32) :
    signPartialAdaptor (Spec.sessionHash H hb he) ctx sk sn an T msg
      = .ok (negIf (isOdd ((an.finalNonce (reduceFrom hb)).1 + T)) (sn.k1.1 + reduceFrom hb * sn.k2.1)
        + keyPart ctx sk (coeffOf H ctx.orderedPubkeys (mulG sk)) he) := by
  rw [signPartialAdaptor_eq (ctxInv_sessionHash hi hb he), if_pos hP]
  unfold partialSigValue sessionE sessionRT sessionR
  rw [nonceCoefficient_sessionHash, challenge_sessionHash, coeffOf_sessionHash]
  rfl

theorem keyPart_smul (ctx : KeyAggContext) (sk : Scalar) (a : MaybeScalar) (he : Arr 32) :
    (reduceFrom he * a * Spec.sgn ctx.aggregatedPubkey.1 * (if ctx.parityAcc then -1 else 1)) • (mulG sk).1
      = keyPart ctx sk a he • G := by
  have h : Spec.sgn ctx.aggregatedPubkey.1 * (if ctx.parityAcc then -1 else 1) * sk.1
      = negIf (isOdd ctx.pubkey.1 ^^ ctx.parityAcc) sk.1 := by
    have hQ : ctx.aggregatedPubkey = ctx.pubkey := rfl
    unfold Spec.sgn
    rw [spec_has_even_y, hQ]
    cases isOdd ctx.pubkey.1 <;> cases ctx.parityAcc <;> simp
  unfold keyPart
  rw [← h, mulG_val, smul_smul]
  congr 1
  ring

theorem reply_nonce (r : Spec.Reply) (hb : Arr 32) :
    r.nonce hb = (r.aggnonce.finalNonce (reduceFrom hb)).1 + r.adaptorPoint := by
  unfold Spec.Reply.nonce
  simp only
  rw [finalNonce_spec]
  rfl

/-- The draws of the simulator that lead to what the signer does. -/
def toDraws (ctx : KeyAggContext) (sk : Scalar) (a : MaybeScalar) (reply : PubNonce → Arr 32 → Arr 32 → Spec.Reply)
    (p : SecNonce × Arr 32 × Arr 32) : Spec.Draws :=
  let r := reply p.1.publicNonce p.2.1 p.2.2
  let neg := isOdd ((r.aggnonce.finalNonce (reduceFrom p.2.1)).1 + r.adaptorPoint)
  ⟨p.2.1, p.2.2, negIf neg (p.1.k1.1 + reduceFrom p.2.1 * p.1.k2.1) + keyPart ctx sk a p.2.2, p.1.k2, neg⟩

theorem signerView_eq {H : Hash} {ctx : KeyAggContext} (hi : CtxInv H ctx) {sk : Scalar}
    (hP : mulG sk ∈ ctx.orderedPubkeys) (reply : PubNonce → Arr 32 → Arr 32 → Spec.Reply) (p : SecNonce × Arr 32 × Arr 32) :
    Spec.signerView H ctx sk reply p = some ⟨p.1.publicNonce, p.2.1, p.2.2,
      (toDraws ctx sk (coeffOf H ctx.orderedPubkeys (mulG sk)) reply p).sig⟩ := by
  unfold Spec.signerView
  simp only
  rw [signPartialAdaptor_sessionHash hi hP]
  rfl

/-- The public nonce of a simulation with the signature that the signer would make. -/
theorem simulatedNonce_eq (ctx : KeyAggContext) (sk : Scalar) (a : MaybeScalar) (hb he : Arr 32) (k1 k2 : Scalar) (neg : Bool) :
    Spec.simulatedNonce ctx (mulG sk) a ⟨hb, he, negIf neg (k1.1 + reduceFrom hb * k2.1) + keyPart ctx sk a he, k2, neg⟩
      = some ⟨mulG k1, mulG k2⟩ := by
  unfold Spec.simulatedNonce
  simp only
  rw [keyPart_smul, show Spec.G = G from rfl]
  have hX : (if neg = true then -((negIf neg (k1.1 + reduceFrom hb * k2.1) + keyPart ctx sk a he) • G - keyPart ctx sk a he • G)
      else (negIf neg (k1.1 + reduceFrom hb * k2.1) + keyPart ctx sk a he) • G - keyPart ctx sk a he • G)
        - reduceFrom hb • (mulG k2).1 = (mulG k1).1 := by
    rw [← sub_smul, add_sub_cancel_right]
    change negIf neg (negIf neg (k1.1 + reduceFrom hb * k2.1) • G) - _ = _
    rw [negIf_smul, negIf_negIf, Bool.xor_self, negIf_false, add_smul, mul_smul]
    exact add_sub_cancel_right _ _
  rw [hX]
  have hno : notInf (mulG k1).1 = some (mulG k1) := notInf_eq_some.2 rfl
  rw [hno]

/-- Every public nonce of a simulation is made this way. -/
theorem exists_of_simulatedNonce {ctx : KeyAggContext} {sk : Scalar} {a : MaybeScalar} {d : Spec.Draws} {pn : PubNonce}
    (h : Spec.simulatedNonce ctx (mulG sk) a d = some pn) :
    ∃ k1, pn = ⟨mulG k1, mulG d.k2⟩ ∧ d.sig = negIf d.neg (k1.1 + reduceFrom d.hb * d.k2.1) + keyPart ctx sk a d.he := by
  unfold Spec.simulatedNonce at h
  simp only at h
  rw [keyPart_smul, show Spec.G = G from rfl] at h
  cases hno : notInf ((if d.neg = true then -(d.sig • G - keyPart ctx sk a d.he • G)
      else d.sig • G - keyPart ctx sk a d.he • G) - reduceFrom d.hb • (mulG d.k2).1) with
  | none => rw [hno] at h; cases h
  | some R1 =>
    rw [hno] at h
    cases h
    obtain ⟨k1, hk1⟩ := mulG_surjective R1
    subst hk1
    have hR := notInf_eq_some.1 hno
    rw [← sub_smul] at hR
    change negIf d.neg ((d.sig - keyPart ctx sk a d.he) • G) - _ = k1.1 • G at hR
    rw [negIf_smul, mulG_val, smul_smul, ← sub_smul, smul_G_inj] at hR
    refine ⟨k1, rfl, ?_⟩
    rw [← hR, sub_add_cancel, negIf_negIf, Bool.xor_self, negIf_false, sub_add_cancel]

theorem simulatedView_toDraws (ctx : KeyAggContext) (sk : Scalar) (a : MaybeScalar)
    (reply : PubNonce → Arr 32 → Arr 32 → Spec.Reply) (p : SecNonce × Arr 32 × Arr 32) :
    Spec.simulatedView ctx (mulG sk) a reply (toDraws ctx sk a reply p)
      = some ⟨p.1.publicNonce, p.2.1, p.2.2, (toDraws ctx sk a reply p).sig⟩ := by
  unfold Spec.simulatedView
  have h := simulatedNonce_eq ctx sk a p.2.1 p.2.2 p.1.k1 p.1.k2 (isOdd (((reply p.1.publicNonce p.2.1 p.2.2).aggnonce.finalNonce
    (reduceFrom p.2.1)).1 + (reply p.1.publicNonce p.2.1 p.2.2).adaptorPoint))
  change Spec.simulatedNonce ctx (mulG sk) a (toDraws ctx sk a reply p) = some p.1.publicNonce at h
  rw [h]
  simp only
  rw [spec_has_even_y, reply_nonce]
  exact if_pos rfl

theorem toDraws_injective (ctx : KeyAggContext) (sk : Scalar) (a : MaybeScalar)
    (reply : PubNonce → Arr 32 → Arr 32 → Spec.Reply) : Function.Injective (toDraws ctx sk a reply) := by
  rintro ⟨⟨k1, k2⟩, hb, he⟩ ⟨⟨k1', k2'⟩, hb', he'⟩ h
  have h1 := congrArg Spec.Draws.hb h
  have h2 := congrArg Spec.Draws.he h
  have h3 := congrArg Spec.Draws.k2 h
  have h4 := congrArg Spec.Draws.neg h
  have h5 := congrArg Spec.Draws.sig h
  change hb = hb' at h1
  change he = he' at h2
  change k2 = k2' at h3
  subst h1 h2 h3
  unfold toDraws at h4 h5
  simp only at h4 h5
  rw [h4] at h5
  have h6 := congrArg (negIf (isOdd (((reply (SecNonce.publicNonce ⟨k1', k2⟩) hb he).aggnonce.finalNonce (reduceFrom hb)).1
    + (reply (SecNonce.publicNonce ⟨k1', k2⟩) hb he).adaptorPoint))) (add_right_cancel h5)
  rw [negIf_negIf, negIf_negIf, Bool.xor_self, negIf_false, negIf_false] at h6
  rw [Subtype.ext (add_right_cancel h6)]

theorem exists_toDraws (ctx : KeyAggContext) (sk : Scalar) (a : MaybeScalar)
    (reply : PubNonce → Arr 32 → Arr 32 → Spec.Reply) (d : Spec.Draws) (v : Spec.View)
    (h : Spec.simulatedView ctx (mulG sk) a reply d = some v) : ∃ p, toDraws ctx sk a reply p = d := by
  unfold Spec.simulatedView at h
  cases hno : Spec.simulatedNonce ctx (mulG sk) a d with
  | none => rw [hno] at h; cases h
  | some pn =>
    rw [hno] at h
    simp only at h
    split at h
    swap
    · cases h
    rename_i hpar
    obtain ⟨k1, rfl, hs⟩ := exists_of_simulatedNonce hno
    refine ⟨(⟨k1, d.k2⟩, d.hb, d.he), ?_⟩
    have hneg : isOdd (((reply ⟨mulG k1, mulG d.k2⟩ d.hb d.he).aggnonce.finalNonce (reduceFrom d.hb)).1
        + (reply ⟨mulG k1, mulG d.k2⟩ d.hb d.he).adaptorPoint) = d.neg := by
      rw [spec_has_even_y, reply_nonce] at hpar
      exact Bool.not_inj hpar
    unfold toDraws SecNonce.publicNonce
    simp only
    rw [hneg, ← hs]

def secNonceEquiv : SecNonce ≃ Scalar × Scalar where
  toFun n := (n.k1, n.k2)
  invFun p := ⟨p.1, p.2⟩
  left_inv _ := rfl
  right_inv _ := rfl

def drawsEquiv : Spec.Draws ≃ (Arr 32 × Arr 32) × (MaybeScalar × Scalar) × Bool where
  toFun d := ((d.hb, d.he), (d.sig, d.k2), d.neg)
  invFun p := ⟨p.1.1, p.1.2, p.2.1.1, p.2.1.2, p.2.2⟩
  left_inv _ := rfl
  right_inv _ := rfl

theorem signerDraws_card : Nat.card (SecNonce × Arr 32 × Arr 32) = (orderN - 1) ^ 2 * (256 ^ 32) ^ 2 := by
  rw [Nat.card_prod, Nat.card_prod, Nat.card_congr secNonceEquiv, Nat.card_prod, arr_card, card_scalar, pow_two, pow_two]

theorem draws_card : Nat.card Spec.Draws = 2 * (orderN * (orderN - 1)) * (256 ^ 32) ^ 2 := by
  rw [Nat.card_congr drawsEquiv, Nat.card_prod, Nat.card_prod, Nat.card_prod, Nat.card_prod, arr_card, card_scalar,
    show Nat.card MaybeScalar = orderN from Nat.card_zmod _, show Nat.card Bool = 2 by simp]
  generalize 256 ^ 32 = A
  generalize orderN - 1 = B
  generalize orderN = C
  ring

end Verif
